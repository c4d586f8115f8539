import Verif.Spec.TypeCheck
import Verif.Lemmas.WireSize
/-!
Lemmas about well typed calls.
-/

namespace Defmt.TypeCheck

open Parser Encoder

theorem wireOctets_truncated (s e : Nat) : wireOctets s e = truncatedSize s e := by
  simp only [wireOctets, truncatedSize, List.find?]
  repeat' split
  all_goals grind

theorem discriminantBytes_isSome (n : Nat) : (discriminantBytes n).isSome = true ↔ n < 2 ^ 64 := by
  unfold discriminantBytes
  repeat' split
  all_goals simp
  all_goals omega

theorem uintTypes (size n : Nat) (ty : Ty) : ty ∈ paramTypes (.uint size n) ↔
    (ty = .u8 ∧ size = 1) ∨ (ty = .u16 ∧ size = 2) ∨ (ty = .u32 ∧ size = 4) ∨ (ty = .u64 ∧ size = 8) ∨ (ty = .u128 ∧ size = 16) := by
  generalize h : Val.uint size n = v
  unfold paramTypes
  split <;> cases h <;> simp_all

theorem sintTypes (size : Nat) (i : Int) (ty : Ty) : ty ∈ paramTypes (.sint size i) ↔
    (ty = .i8 ∧ size = 1) ∨ (ty = .i16 ∧ size = 2) ∨ (ty = .i32 ∧ size = 4) ∨ (ty = .i64 ∧ size = 8) ∨ (ty = .i128 ∧ size = 16) := by
  generalize h : Val.sint size i = v
  unfold paramTypes
  split <;> cases h <;> simp_all

theorem tagOf_isSome (v : Val) : (tagOf v).isSome = true ↔ .format ∈ paramTypes v := by
  cases v with
  | uint => simp [tagOf, uintTypes]
  | sint => simp [tagOf, sintTypes]
  | _ => simp [tagOf, paramTypes]

/-- the value has data of its own -/
def HasData (v : Val) : Prop := .format ∈ paramTypes v ∨ ∃ tag s es, v = .slice tag s es

theorem encodeArg_isSome (ty : Ty) (v : Val) (data : Option (List UInt8)) (P : Prop) (hd : HasData v → (data.isSome = true ↔ P)) (hp : ¬ HasData v → P) :
    (encodeArg ty v data).isSome = true ↔ Fits ty v ∧ P := by
  cases v with
  | uint size n =>
    have hP : P := hp (by simp [HasData, uintTypes])
    cases ty
    case bitField s e =>
      simp only [encodeArg, Fits, BitsFit, wireOctets_truncated, hP, and_true]
      split
      · simp_all
      · rename_i d hd'
        simp only [Option.some.injEq, exists_eq_left', hd']
        split
        · rename_i h; simp [h]
        · rename_i h
          simp only [Option.isSome_none, Bool.false_eq_true, false_iff]
          exact fun h' => h ⟨h'.2, h'.1⟩
    all_goals
      simp only [Fits, uintTypes, hP, and_true]
      unfold encodeArg
      split <;> simp_all
    all_goals simp [tagOf]
  | sint size n =>
    have hP : P := hp (by simp [HasData, sintTypes])
    cases ty
    all_goals
      simp only [Fits, sintTypes, hP, and_true]
      unfold encodeArg
      split <;> simp_all
    all_goals simp [tagOf]
  | bytes bs =>
    have hP : P := hp (by simp [HasData, paramTypes])
    cases ty <;> simp [encodeArg, Fits, paramTypes, hP, tagOf]
    constructor <;> intro h <;> simp_all
  | slice tag f es =>
    have hD := hd (.inr ⟨_, _, _, rfl⟩)
    cases ty <;> simp [encodeArg, Fits, paramTypes, hD, tagOf]
    case formatArray n =>
      rw [← hD]
      by_cases h : es.length = n
      · cases data <;> simp [h]
      · have h' : ¬ n = es.length := fun e => h e.symm
        simp [h, h']
  | formatted tag f as =>
    have hD := hd (.inl (by simp [paramTypes]))
    cases ty <;> simp [encodeArg, Fits, paramTypes, tagOf]
    rw [← hD]; cases data <;> simp
  | variant tag f i as =>
    have hD := hd (.inl (by simp [paramTypes]))
    cases ty <;> simp [encodeArg, Fits, paramTypes, tagOf]
    rw [← hD]; cases data <;> simp
  | manual tag ws =>
    have hD := hd (.inl (by simp [paramTypes]))
    cases ty <;> simp [encodeArg, Fits, paramTypes, tagOf]
    rw [← hD]; cases data <;> simp
  | _ =>
    have hP : P := hp (by simp [HasData, paramTypes])
    cases ty <;> simp [encodeArg, Fits, paramTypes, hP, tagOf]

theorem index_lt_expected {ps : List Parameter} {p : Parameter} (hp : p ∈ ps) : p.index < expectedArgs ps := by
  have hmono : ∀ (l : List Nat) (a : Nat), a ≤ l.foldl max a := by
    intro l
    induction l with
    | nil => intro a; exact Nat.le_refl _
    | cons x l ih => intro a; exact Nat.le_trans (Nat.le_max_left a x) (ih _)
  have h : ∀ (l : List Nat) (a x : Nat), x ∈ l → x ≤ l.foldl max a := by
    intro l
    induction l with
    | nil => intro a x hx; cases hx
    | cons y l ih =>
      intro a x hx
      rcases List.mem_cons.mp hx with rfl | hx
      · exact Nat.le_trans (Nat.le_max_right a x) (hmono l _)
      · exact ih _ _ hx
  have := h (ps.map (fun p => p.index + 1)) 0 (p.index + 1) (List.mem_map.mpr ⟨p, hp, rfl⟩)
  exact this

theorem allSome_mem {α : Type} : ∀ {l : List (Option α)} {as : List α}, allSome l = some as → ∀ {o : Option α}, o ∈ l → o ≠ none
  | [], _, _, _, ho => by cases ho
  | none :: l, _, h, _, _ => by simp [allSome] at h
  | some a :: l, as, h, o, ho => by
    rw [allSome] at h
    obtain ⟨b, hb, _⟩ := Option.map_eq_some_iff.mp h
    rcases List.mem_cons.mp ho with rfl | ho
    · simp
    · exact allSome_mem hb ho

mutual

theorem formatData_isSome : (v : Val) → (HasData v → ((formatData v).isSome = true ↔ Inside v)) ∧ (¬ HasData v → Inside v ∧ formatData v = none)
  | .formatted tag fmt args => by
    refine ⟨fun _ => ?_, fun h => absurd (.inl (by simp [paramTypes])) h⟩
    simp only [formatData, Inside]
    cases argTypes fmt args.length with
    | none => simp
    | some tys => simpa using encodeArgs_isSome tys args
  | .variant tag vs i args => by
    refine ⟨fun _ => ?_, fun h => absurd (.inl (by simp [paramTypes])) h⟩
    simp only [formatData, Inside]
    have hn := discriminantBytes_isSome vs.length
    cases hf : vs[i]? with
    | none => simp
    | some fmt =>
      cases hd : discriminantBytes vs.length with
      | none =>
        rw [hd] at hn
        simp only [Option.isSome_none, Bool.false_eq_true, false_iff] at hn ⊢
        exact fun h => hn h.1
      | some size =>
        rw [hd] at hn
        have hn' : vs.length < 2 ^ 64 := hn.mp rfl
        simp only [hn', true_and, Option.some.injEq]
        cases ha : argTypes fmt args.length with
        | none =>
          simp only [Option.isSome_none, Bool.false_eq_true, false_iff]
          rintro ⟨_, _, rfl, h, _⟩
          rw [ha] at h; cases h
        | some tys =>
          simp only [Option.isSome_map]
          rw [encodeArgs_isSome tys args]
          constructor
          · exact fun h => ⟨fmt, tys, rfl, ha, h⟩
          · rintro ⟨_, _, rfl, h, h'⟩
            rw [ha] at h; cases h; exact h'
  | .manual tag ws => by
    refine ⟨fun _ => ?_, fun h => absurd (.inl (by simp [paramTypes])) h⟩
    simp only [formatData, Inside, Option.isSome_map]
    exact encodeWrites_isSome ws
  | .slice tag fmt es => by
    refine ⟨fun _ => ?_, fun h => absurd (.inr ⟨_, _, _, rfl⟩) h⟩
    simp only [formatData, Inside]
    exact encodeElems_isSome es
  | .uint _ _ => by simp [HasData, uintTypes, Inside, formatData]
  | .sint _ _ => by simp [HasData, sintTypes, Inside, formatData]
  | .usize _ | .isize _ | .f32 _ | .f64 _ | .bool _ | .char _ | .str _ | .istr _ _ | .bytes _ | .text _ => by
    simp [HasData, paramTypes, Inside, formatData]

theorem encodeArgs_isSome : (tys : List Ty) → (vs : List Val) → ((encodeArgs tys vs).isSome = true ↔ AllFit tys vs)
  | [], [] => by simp [encodeArgs, AllFit]
  | [], _ :: _ => by simp [encodeArgs, AllFit]
  | _ :: _, [] => by simp [encodeArgs, AllFit]
  | ty :: tys, v :: vs => by
    simp only [encodeArgs, AllFit]
    have h1 := encodeArg_isSome ty v (formatData v) (Inside v) (formatData_isSome v).1 (fun h => ((formatData_isSome v).2 h).1)
    have h2 := encodeArgs_isSome tys vs
    rw [← h2, ← and_assoc, ← h1]
    cases encodeArg ty v (formatData v) <;> cases encodeArgs tys vs <;> simp

theorem encodeWrites_isSome : (vs : List Val) → ((encodeWrites vs).isSome = true ↔ Written vs)
  | [] => by simp [encodeWrites, Written]
  | v :: vs => by
    simp only [encodeWrites, Written]
    have h2 := encodeWrites_isSome vs
    have h1 := tagOf_isSome v
    have h3 : Ty.format ∈ paramTypes v → ((formatData v).isSome = true ↔ Inside v) := fun h => (formatData_isSome v).1 (.inl h)
    rw [← h2]
    by_cases h : Ty.format ∈ paramTypes v
    · rw [← h3 h, ← h1]
      cases tagOf v <;> cases formatData v <;> cases encodeWrites vs <;> simp
    · cases ht : tagOf v with
      | none => simp [h]
      | some _ => exact absurd (h1.mp (by simp [ht])) h

theorem encodeElems_isSome : (vs : List Val) → ((encodeElems vs).isSome = true ↔ Elements vs)
  | [] => by simp [encodeElems, Elements]
  | v :: vs => by
    simp only [encodeElems, Elements]
    have h2 := encodeElems_isSome vs
    have h3 := formatData_isSome v
    rw [← h2]
    by_cases h : HasData v
    · rw [← h3.1 h]
      have h' : (Ty.format ∈ paramTypes v ∨ ∃ tag s es, v = Val.slice tag s es) := h
      simp only [h', true_and]
      cases formatData v <;> cases encodeElems vs <;> simp
    · have h' : ¬ (Ty.format ∈ paramTypes v ∨ ∃ tag s es, v = Val.slice tag s es) := h
      simp only [h', false_and, iff_false]
      rw [(h3.2 h).2]
      simp

end

end Defmt.TypeCheck
