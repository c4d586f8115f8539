import Verif.Spec.ElfExact
import Verif.Lemmas.Bitflags
import Verif.Lemmas.Grammar
/-! Lemmas about the files that the decoder accepts. -/

namespace Defmt.Elf

open Parser Symbol Bitflags

/-! ### Splitting at two colons -/

theorem noColons_cons {c : Char} {s : List Char} (h : NoColons (c :: s)) : NoColons s :=
  fun hs => h (hs.trans (List.suffix_cons _ _).isInfix)

theorem noColons_two {c d : Char} {s : List Char} : NoColons (c :: d :: s) ↔ ¬ (c = ':' ∧ d = ':') ∧ NoColons (d :: s) := by
  constructor
  · intro h
    refine ⟨?_, noColons_cons h⟩
    rintro ⟨rfl, rfl⟩
    exact h (List.IsPrefix.isInfix ⟨s, rfl⟩)
  · rintro ⟨h1, h2⟩ h
    rw [List.infix_cons_iff] at h
    rcases h with ⟨r, hr⟩ | h
    · simp only [List.cons_append, List.nil_append, List.cons.injEq] at hr
      exact h1 ⟨hr.1.symm, hr.2.1.symm⟩
    · exact h2 h

theorem noColons_nil : NoColons [] := by
  intro h
  have := h.length_le
  simp at this

theorem noColons_one (c : Char) : NoColons [c] := by
  intro h
  have := h.length_le
  simp at this

theorem splitColons_ne (s : List Char) : splitColons s ≠ [] := by
  fun_induction splitColons s <;> simp_all

theorem splitColons_single (s : List Char) : ∀ a, splitColons s = [a] ↔ s = a ∧ NoColons s := by
  fun_induction splitColons s with
  | case1 => intro a; simp [noColons_nil, eq_comm]
  | case2 c => intro a; simp [noColons_one]
  | case3 c c' rest hc ih =>
    intro a
    simp only [List.cons.injEq, splitColons_ne, and_false, false_iff]
    rintro ⟨-, h⟩
    exact (noColons_two.mp h).1 hc
  | case4 c c' rest hc hnil ih => exact absurd hnil (splitColons_ne _)
  | case5 c c' rest hc piece pieces hp ih =>
    intro a
    have := ih piece
    rw [hp] at this
    simp only [List.cons.injEq, true_and] at this ⊢
    rw [this, noColons_two]
    constructor
    · rintro ⟨h1, h2, h3⟩
      exact ⟨by rw [h2]; exact h1, hc, h3⟩
    · rintro ⟨rfl, -, h3⟩
      refine ⟨?_, ?_, h3⟩
      · have hx := (ih (c' :: rest)).mpr ⟨rfl, h3⟩
        rw [hp] at hx
        simp only [List.cons.injEq] at hx
        rw [hx.1]
      · have hx := (ih (c' :: rest)).mpr ⟨rfl, h3⟩
        rw [hp] at hx
        simp only [List.cons.injEq] at hx
        exact hx.1.symm

theorem splitColons_first (s : List Char) : ∀ a l, l ≠ [] → (splitColons s = a :: l ↔
    ∃ r, s = a ++ c!"::" ++ r ∧ NoColons (a ++ [':']) ∧ splitColons r = l) := by
  fun_induction splitColons s with
  | case1 =>
    intro a l hl
    simp [Ne.symm hl]
  | case2 c =>
    intro a l hl
    constructor
    · intro h; simp at h; exact absurd h.2.symm (fun h => hl h.symm)
    · rintro ⟨r, h, -⟩
      have := congrArg List.length h
      simp at this
      omega
  | case3 c c' rest hc ih =>
    obtain ⟨rfl, rfl⟩ := hc
    intro a l hl
    simp only [List.cons.injEq]
    constructor
    · rintro ⟨rfl, rfl⟩
      exact ⟨rest, rfl, noColons_one _, rfl⟩
    · rintro ⟨r, h1, h2, h3⟩
      cases a with
      | nil => simp only [List.nil_append, List.cons_append, List.cons.injEq, true_and] at h1; subst h1; exact ⟨rfl, h3⟩
      | cons x a =>
        exfalso
        cases a with
        | nil =>
          simp only [List.cons_append, List.nil_append, List.cons.injEq] at h1 h2
          exact (noColons_two.mp h2).1 ⟨h1.1.symm, rfl⟩
        | cons y a =>
          simp only [List.cons_append, List.cons.injEq] at h1 h2
          exact (noColons_two.mp h2).1 ⟨h1.1.symm, h1.2.1.symm⟩
  | case4 c c' rest hc hnil ih => exact absurd hnil (splitColons_ne _)
  | case5 c c' rest hc piece pieces hp ih =>
    intro a l hl
    have := fun p => ih p l hl
    rw [hp] at this
    simp only [List.cons.injEq] at this ⊢
    constructor
    · rintro ⟨rfl, rfl⟩
      obtain ⟨r, h1, h2, h3⟩ := (this piece).mp ⟨rfl, rfl⟩
      refine ⟨r, by rw [h1]; rfl, ?_, h3⟩
      cases hpc : piece with
      | nil =>
        rw [hpc] at h1
        simp only [List.nil_append, List.cons_append, List.cons.injEq] at h1
        refine noColons_two.mpr ⟨?_, noColons_one _⟩
        rintro ⟨hx, -⟩
        exact hc ⟨hx, h1.1⟩
      | cons y p =>
        rw [hpc] at h1 h2
        simp only [List.cons_append, List.cons.injEq] at h1
        refine noColons_two.mpr ⟨?_, h2⟩
        rintro ⟨hx, hy⟩
        exact hc ⟨hx, h1.1.trans hy⟩
    · rintro ⟨r, h1, h2, h3⟩
      cases a with
      | nil =>
        simp only [List.nil_append, List.cons_append, List.cons.injEq] at h1
        exact absurd ⟨h1.1, h1.2.1⟩ hc
      | cons x a =>
        simp only [List.cons_append, List.cons.injEq] at h1
        obtain ⟨rfl, h1⟩ := h1
        obtain ⟨rfl, h4⟩ := (this a).mpr ⟨r, by simpa using h1, noColons_cons h2, h3⟩
        exact ⟨rfl, h4⟩

theorem digits_noColons {s : List Char} (h : ':' ∉ s) : NoColons (s ++ [':']) := by
  induction s with
  | nil => exact noColons_one _
  | cons c s ih =>
    simp only [List.mem_cons, not_or] at h
    cases s with
    | nil => exact noColons_two.mpr ⟨fun hx => h.1 hx.1.symm, noColons_one _⟩
    | cons d s => exact noColons_two.mpr ⟨fun hx => h.1 hx.1.symm, ih h.2⟩

/-! ### Numbers -/

theorem parseU128Digits_iff {s : List Char} {n : Nat} : parseU128Digits s = some n ↔ Number (2 ^ 128) s n := by
  unfold parseU128Digits
  split
  · rename_i h
    exact parseDigits_iff (List.all_eq_true.mp h)
  · rename_i h
    simp only [reduceCtorEq, false_iff]
    rintro ⟨-, h2, -⟩
    apply h
    rw [List.all_eq_true, isDigit_eq']
    exact h2

theorem parseU128_iff {s : List Char} {n : Nat} : parseU128 s = some n ↔
    ∃ plus digits, s = plus ++ digits ∧ (plus = [] ∨ plus = ['+']) ∧ Number (2 ^ 128) digits n := by
  unfold parseU128
  cases hs : stripPrefix c!"+" s with
  | some rest =>
    have := stripPrefix_iff.mp hs
    subst this
    simp only
    rw [parseU128Digits_iff]
    constructor
    · intro h; exact ⟨c!"+", rest, rfl, .inr rfl, h⟩
    · rintro ⟨plus, digits, h1, rfl | rfl, h3⟩
      · exfalso
        have := h3.2.1 '+' (by rw [← List.nil_append digits, ← h1]; simp)
        exact absurd this (by decide)
      · have : rest = digits := by simpa using h1
        rw [this]; exact h3
  | none =>
    simp only
    rw [parseU128Digits_iff]
    constructor
    · intro h; exact ⟨[], s, rfl, .inl rfl, h⟩
    · rintro ⟨plus, digits, rfl, rfl | rfl, h3⟩
      · exact h3
      · rw [stripPrefix_iff.mpr rfl] at hs; cases hs

theorem flagData_iff (s : List Char) : FlagData s ↔ ∃ a i c n, splitColons s = [a, i, c] ∧ parseU128 i = some n := by
  constructor
  · rintro ⟨type, plus, digits, flag, n, rfl, h1, h2, h3, h4⟩
    have hi : ':' ∉ plus ++ digits := by
      intro hm
      rcases List.mem_append.mp hm with hm | hm
      · rcases h2 with rfl | rfl
        · cases hm
        · simp at hm
      · exact absurd (h3.2.1 _ hm) (by decide)
    refine ⟨type, plus ++ digits, flag, n, ?_, parseU128_iff.mpr ⟨plus, digits, rfl, h2, h3⟩⟩
    refine (splitColons_first _ _ _ (by simp)).mpr ⟨plus ++ digits ++ c!"::" ++ flag, by simp, h1, ?_⟩
    refine (splitColons_first _ _ _ (by simp)).mpr ⟨flag, by simp, digits_noColons hi, ?_⟩
    exact (splitColons_single _ _).mpr ⟨rfl, h4⟩
  · rintro ⟨a, i, c, n, hs, hn⟩
    obtain ⟨r, rfl, h2, h3⟩ := (splitColons_first _ _ _ (by simp)).mp hs
    obtain ⟨r', rfl, -, h5⟩ := (splitColons_first _ _ _ (by simp)).mp h3
    obtain ⟨rfl, h6⟩ := (splitColons_single _ _).mp h5
    obtain ⟨plus, digits, rfl, h7, h8⟩ := parseU128_iff.mp hn
    exact ⟨a, plus, digits, r', n, by simp, h2, h7, h8, h6⟩

/-! ### Versions -/

theorem trimStart_replicate {p : List Char} (hp : p ≠ []) : ∀ n s, s.length ≤ n →
    ∃ a, s = (List.replicate a p).flatten ++ trimStart p n s := by
  intro n
  induction n with
  | zero => intro s hs; exact ⟨0, by simp [trimStart]⟩
  | succ n ih =>
    intro s hs
    unfold trimStart
    cases h : stripPrefix p s with
    | none => exact ⟨0, by simp⟩
    | some rest =>
      have := stripPrefix_iff.mp h
      subst this
      have hl : 0 < p.length := List.length_pos_iff.mpr hp
      rw [List.length_append] at hs
      obtain ⟨a, ha⟩ := ih rest (by omega)
      refine ⟨a + 1, ?_⟩
      rw [List.replicate_succ, List.flatten_cons, List.append_assoc]
      simp only
      rw [← ha]

theorem trimStart_of_replicate {p : List Char} {r : List Char} (hr : stripPrefix p r = none) :
    ∀ a n, a ≤ n → trimStart p n ((List.replicate a p).flatten ++ r) = r := by
  intro a
  induction a with
  | zero =>
    intro n _
    cases n with
    | zero => rfl
    | succ n => simp [trimStart, hr]
  | succ a ih =>
    intro n hn
    obtain ⟨n, rfl⟩ := Nat.exists_eq_succ_of_ne_zero (show n ≠ 0 by omega)
    rw [List.replicate_succ, List.flatten_cons, List.append_assoc]
    have h : stripPrefix p (p ++ ((List.replicate a p).flatten ++ r)) = some ((List.replicate a p).flatten ++ r) :=
      stripPrefix_iff.mpr rfl
    simp only [trimStart, h]
    exact ih n (by omega)

theorem trimEnd_replicate (c : Char) (s : List Char) : ∃ k, s = trimEnd c s ++ List.replicate k c := by
  refine ⟨(s.reverse.takeWhile (· = c)).length, ?_⟩
  unfold trimEnd
  have h := List.takeWhile_append_dropWhile (p := fun x => decide (x = c)) (l := s.reverse)
  have h2 : s.reverse.takeWhile (fun x => decide (x = c)) = List.replicate (s.reverse.takeWhile (· = c)).length c := by
    rw [List.eq_replicate_iff]
    refine ⟨rfl, fun x hx => ?_⟩
    have := List.all_takeWhile (p := fun x => decide (x = c)) (l := s.reverse)
    rw [List.all_eq_true] at this
    simpa using this x hx
  have h3 := congrArg List.reverse h
  rw [List.reverse_append, List.reverse_reverse] at h3
  rw [h2, List.reverse_replicate] at h3
  exact h3.symm

theorem trimEnd_of_replicate (c : Char) {s : List Char} (h : s.getLast? ≠ some c) (k : Nat) :
    trimEnd c (s ++ List.replicate k c) = s := by
  unfold trimEnd
  rw [List.reverse_append, List.reverse_replicate]
  have : ∀ k (l : List Char), (List.replicate k c ++ l).dropWhile (· = c) = l.dropWhile (· = c) := by
    intro k
    induction k with
    | zero => intro l; rfl
    | succ k ih => intro l; rw [List.replicate_succ, List.cons_append, List.dropWhile_cons]; simp [ih]
  rw [this]
  have h2 : s.reverse.dropWhile (· = c) = s.reverse := by
    cases hr : s.reverse with
    | nil => rfl
    | cons a l =>
      rw [List.dropWhile_cons, if_neg]
      have ha : s.getLast? = some a := by rw [List.getLast?_eq_head?_reverse, hr]; rfl
      simp only [decide_eq_true_eq]
      intro hac
      rw [ha, hac] at h
      exact h rfl
  rw [h2, List.reverse_reverse]

theorem version_iff {v name : List Char} (hv : v = c!"3" ∨ v = c!"4") : tryGetVersion name = some v ↔ VersionName v name := by
  have hne1 : quotedVersionPrefix ≠ [] := by decide
  have hne2 : versionPrefix ≠ [] := by decide
  have hlast : v.getLast? ≠ some '"' := by rcases hv with rfl | rfl <;> decide
  have hnop : ∀ k, stripPrefix versionPrefix (v ++ List.replicate k '"') = none := by
    intro k; rcases hv with rfl | rfl <;> rfl
  have hnoq : ∀ b k, stripPrefix quotedVersionPrefix ((List.replicate b versionPrefix).flatten ++ (v ++ List.replicate k '"')) = none := by
    intro b k
    cases b with
    | zero => rcases hv with rfl | rfl <;> rfl
    | succ b =>
      rw [List.replicate_succ, List.flatten_cons]
      rfl
  have hflat : ∀ (a : Nat) (p : List Char), 0 < p.length → a ≤ (List.replicate a p).flatten.length := by
    intro a p hp
    rw [List.length_flatten, List.map_replicate, List.sum_replicate_nat]
    exact Nat.le_mul_of_pos_right a hp
  unfold tryGetVersion
  constructor
  · intro h
    split at h
    · rename_i hpre
      simp only [Option.some.injEq] at h
      obtain ⟨a, ha⟩ := trimStart_replicate hne1 name.length name (Nat.le_refl _)
      generalize trimStart quotedVersionPrefix name.length name = x at ha h
      obtain ⟨b, hb⟩ := trimStart_replicate hne2 x.length x (Nat.le_refl _)
      generalize trimStart versionPrefix x.length x = y at hb h
      obtain ⟨k, hk⟩ := trimEnd_replicate '"' y
      rw [h] at hk
      refine ⟨a, b, k, ?_, by rw [ha, hb, hk]; simp [quotedVersionPrefix, versionPrefix]⟩
      by_cases hab : 0 < a + b
      · exact hab
      · exfalso
        have ha0 : a = 0 := by omega
        have hb0 : b = 0 := by omega
        subst ha0 hb0
        simp only [List.replicate_zero, List.flatten_nil, List.nil_append] at ha hb
        have hname : name = v ++ List.replicate k '"' := by rw [ha, hb, hk]
        simp only [Bool.or_eq_true] at hpre
        have h1 := hnop k
        have h2 := hnoq 0 k
        simp only [List.replicate_zero, List.flatten_nil, List.nil_append] at h2
        rw [← hname] at h1 h2
        rcases hpre with hp | hp
        · unfold hasPrefix at hp; rw [h2] at hp; cases hp
        · unfold hasPrefix at hp; rw [h1] at hp; cases hp
    · cases h
  · rintro ⟨a, b, k, hab, hname⟩
    have hname' : name = (List.replicate a quotedVersionPrefix).flatten ++ ((List.replicate b versionPrefix).flatten ++
        (v ++ List.replicate k '"')) := by rw [hname]; simp [quotedVersionPrefix, versionPrefix]
    have hpre : (hasPrefix quotedVersionPrefix name || hasPrefix versionPrefix name) = true := by
      rw [Bool.or_eq_true, hasPrefix_iff, hasPrefix_iff, hname']
      cases a with
      | succ a => exact .inl ⟨_, by rw [List.replicate_succ, List.flatten_cons, List.append_assoc]⟩
      | zero =>
        obtain ⟨b, rfl⟩ := Nat.exists_eq_succ_of_ne_zero (show b ≠ 0 by omega)
        exact .inr ⟨_, by simp only [List.replicate_zero, List.flatten_nil, List.nil_append]; rw [Nat.succ_eq_add_one, List.replicate_succ, List.flatten_cons, List.append_assoc]⟩
    rw [if_pos hpre]
    simp only [Option.some.injEq]
    have e1 : trimStart quotedVersionPrefix name.length name = (List.replicate b versionPrefix).flatten ++
        (v ++ List.replicate k '"') := by
      have hlen : a ≤ name.length := by
        rw [hname', List.length_append]
        have := hflat a quotedVersionPrefix (by decide)
        omega
      conv => lhs; arg 3; rw [hname']
      exact trimStart_of_replicate (hnoq b k) a _ hlen
    rw [e1, trimStart_of_replicate (hnop k) b _ (by
      rw [List.length_append]
      have := hflat b versionPrefix (by decide)
      omega), trimEnd_of_replicate _ hlast]

theorem encoding_iff {e name : List Char} : tryGetEncoding name = some e ↔ name = c!"_defmt_encoding_ = " ++ e :=
  stripPrefix_iff

/-! ### Symbols -/

theorem isSkipped_unrelated {s : ElfSymbol} {n : List Char} (hn : s.name = some n) (h : isSkipped n = true) : Unrelated s := by
  unfold isSkipped at h
  simp only [Bool.or_eq_true, decide_eq_true_eq, hasPrefix_iff] at h
  unfold Unrelated
  rw [hn]
  rcases h with (h | h | ⟨r, h⟩) | ⟨r, h⟩ | ⟨r, h⟩ <;> subst h
  · simp
  · simp
  · exact .inr (.inr (.inr (.inr ⟨r, .inl rfl⟩)))
  · exact .inr (.inr (.inr (.inr ⟨r, .inr (.inl rfl)⟩)))
  · exact .inr (.inr (.inr (.inr ⟨r, .inr (.inr rfl)⟩)))

theorem unrelated_skip {data : Option (List UInt8)} {s : ElfSymbol} (hu : Unrelated s) : symbolItem data s = .ok .skip := by
  have hsk : ∀ n, s.name = some n → isSkipped n = true → symbolItem data s = .ok .skip := by
    intro n hn hk
    unfold symbolItem
    rw [hn]
    simp only
    rw [if_pos hk]
  rcases hu with hu | hu | hu | hu | ⟨r, hu | hu | hu⟩
  · unfold symbolItem
    cases hn : s.name with
    | none => rfl
    | some n =>
      simp only
      split
      · rfl
      · rw [hu]; rfl
  · unfold symbolItem; rw [hu]
  · exact hsk _ hu (by decide)
  · exact hsk _ hu (by decide)
  · exact hsk _ hu (by
      have : hasPrefix c!"$d." (c!"$d." ++ r) = true := hasPrefix_iff.mpr ⟨r, rfl⟩
      simp only [isSkipped, this, Bool.or_true, Bool.true_or])
  · exact hsk _ hu (by
      have : hasPrefix c!"_defmt" (c!"_defmt" ++ r) = true := hasPrefix_iff.mpr ⟨r, rfl⟩
      simp only [isSkipped, this, Bool.or_true, Bool.true_or])
  · exact hsk _ hu (by
      have : hasPrefix c!"__DEFMT_MARKER" (c!"__DEFMT_MARKER" ++ r) = true := hasPrefix_iff.mpr ⟨r, rfl⟩
      simp only [isSkipped, this, Bool.or_true])

/-- A symbol is unrelated, has a name in JSON, or cannot be read. -/
theorem symbol_kinds (data : Option (List UInt8)) (s : ElfSymbol) :
    Unrelated s ∨ (∃ h, HasParts s h) ∨ symbolItem data s = .err .demangle := by
  cases hn : s.name with
  | none => exact .inl (.inr (.inl hn))
  | some n =>
    cases hk : isSkipped n with
    | true => exact .inl (isSkipped_unrelated hn hk)
    | false =>
      cases hin : s.inDefmt with
      | false => exact .inl (.inl hin)
      | true =>
        cases hd : demangle n with
        | some h => exact .inr (.inl ⟨h, hin, n, hn, hd⟩)
        | none =>
          refine .inr (.inr ?_)
          unfold symbolItem
          rw [hn]
          simp [hk, hin, hd]

theorem hasParts_unique {s : ElfSymbol} {h h' : HostSymbol} (a : HasParts s h) (b : HasParts s h') : h = h' := by
  obtain ⟨-, n, hn, hd⟩ := a
  obtain ⟨-, n', hn', hd'⟩ := b
  rw [hn] at hn'
  cases hn'
  rw [hd] at hd'
  cases hd'
  rfl

theorem unrelated_not_parts {s : ElfSymbol} {h : HostSymbol} (hp : HasParts s h) : ¬ Unrelated s := by
  intro hu
  obtain ⟨hin, n, hn, hd⟩ := hp
  have hsk : isSkipped n = false := by
    cases hx : isSkipped n with
    | false => rfl
    | true => rw [demangle_of_isSkipped hx] at hd; cases hd
  unfold Unrelated at hu
  rw [hin, hn] at hu
  simp only [Bool.true_eq_false, reduceCtorEq, false_or, Option.some.injEq] at hu
  have : isSkipped n = true := by
    rcases hu with rfl | rfl | ⟨r, rfl | rfl | rfl⟩
    · decide
    · decide
    · have : hasPrefix c!"$d." (c!"$d." ++ r) = true := hasPrefix_iff.mpr ⟨r, rfl⟩
      simp only [isSkipped, this, Bool.or_true, Bool.true_or]
    · have : hasPrefix c!"_defmt" (c!"_defmt" ++ r) = true := hasPrefix_iff.mpr ⟨r, rfl⟩
      simp only [isSkipped, this, Bool.or_true, Bool.true_or]
    · have : hasPrefix c!"__DEFMT_MARKER" (c!"__DEFMT_MARKER" ++ r) = true := hasPrefix_iff.mpr ⟨r, rfl⟩
      simp only [isSkipped, this, Bool.or_true]
  rw [this] at hsk
  cases hsk

theorem flagItem_ok {data : Option (List UInt8)} {s : ElfSymbol} {h : HostSymbol} : (∃ i, flagItem data s h = .ok i) ↔
    FlagData h.data ∧ s.size = 16 ∧ ∃ bytes, data = some bytes ∧ s.address + 16 ≤ bytes.length ∧ s.address + 16 < 2 ^ 64 := by
  rw [flagData_iff]
  constructor
  · rintro ⟨i, hi⟩
    unfold flagItem at hi
    split at hi
    · cases hi
    rename_i hsize
    split at hi
    · cases hi
    rename_i bytes
    split at hi
    · cases hi
    rename_i haddr
    unfold getValue at hi
    split at hi
    · cases hi
    rename_i hv
    split at hi
    · rename_i heq
      split at hi
      · cases hi
      · rename_i n hn
        refine ⟨⟨_, _, _, n, heq, hn⟩, by simpa using hsize, bytes, rfl, ?_, by omega⟩
        split at hv
        · assumption
        · cases hv
    · cases hi
  · rintro ⟨⟨a, i, c, n, hs, hn⟩, hsize, bytes, rfl, h1, h2⟩
    unfold flagItem
    rw [if_neg (by simpa using hsize)]
    simp only
    rw [if_neg (by omega)]
    unfold getValue
    rw [if_pos h1]
    simp only [hs, hn]
    exact ⟨_, rfl⟩

theorem flagItem_panic {data : Option (List UInt8)} {s : ElfSymbol} {h : HostSymbol} : flagItem data s h = .panic ↔
    s.size = 16 ∧ data ≠ none ∧ 2 ^ 64 ≤ s.address + 16 := by
  constructor
  · intro hi
    unfold flagItem at hi
    split at hi
    · cases hi
    rename_i hsize
    split at hi
    · cases hi
    split at hi
    · rename_i haddr
      exact ⟨by simpa using hsize, by simp, haddr⟩
    · split at hi
      · cases hi
      split at hi
      · split at hi <;> cases hi
      · cases hi
  · rintro ⟨h1, h2, h3⟩
    unfold flagItem
    rw [if_neg (by simpa using h1)]
    cases data with
    | none => exact absurd rfl h2
    | some d => simp only; rw [if_pos h3]

theorem symbolItem_cases {data : Option (List UInt8)} {s : ElfSymbol} {h : HostSymbol} (hp : HasParts s h) :
    (h.tag = c!"defmt_bitflags_value" → symbolItem data s = flagItem data s h) ∧
    (h.tag ≠ c!"defmt_bitflags_value" → ∃ i, symbolItem data s = .ok i) := by
  obtain ⟨n, -, hi⟩ := symbolItem_parts (data := data) hp
  constructor
  · intro ht
    rw [(knownTag_tagName .bitflagsValue h).mpr ht] at hi
    exact hi
  · intro ht
    cases hk : h.knownTag with
    | none => rw [hk] at hi; exact ⟨_, hi⟩
    | some tag =>
      rw [hk] at hi
      cases tag with
      | bitflagsValue => exact absurd ((knownTag_tagName .bitflagsValue _).mp hk) ht
      | _ => exact ⟨_, hi⟩

theorem canBeRead_iff {data : Option (List UInt8)} {s : ElfSymbol} : (∃ i, symbolItem data s = .ok i) ↔ CanBeRead data s := by
  constructor
  · rintro ⟨i, hi⟩
    rcases symbol_kinds data s with hu | ⟨h, hp⟩ | he
    · exact .inl hu
    · refine .inr ⟨⟨h, hp⟩, ?_⟩
      rintro d ⟨h', hp', ht, rfl⟩
      cases hasParts_unique hp hp'
      rw [(symbolItem_cases hp).1 ht] at hi
      exact flagItem_ok.mp ⟨i, hi⟩
    · rw [he] at hi; cases hi
  · rintro (hu | ⟨⟨h, hp⟩, hf⟩)
    · exact ⟨_, unrelated_skip hu⟩
    · by_cases ht : h.tag = c!"defmt_bitflags_value"
      · rw [(symbolItem_cases hp).1 ht]
        exact flagItem_ok.mpr (hf h.data ⟨h, hp, ht, rfl⟩)
      · exact (symbolItem_cases hp).2 ht

theorem symbolItem_panic {data : Option (List UInt8)} {s : ElfSymbol} : symbolItem data s = .panic ↔
    (∃ d, IsFlagSymbol s d) ∧ s.size = 16 ∧ data ≠ none ∧ 2 ^ 64 ≤ s.address + 16 := by
  constructor
  · intro hi
    rcases symbol_kinds data s with hu | ⟨h, hp⟩ | he
    · rw [unrelated_skip hu] at hi; cases hi
    · by_cases ht : h.tag = c!"defmt_bitflags_value"
      · rw [(symbolItem_cases hp).1 ht] at hi
        exact ⟨⟨h.data, h, hp, ht, rfl⟩, flagItem_panic.mp hi⟩
      · obtain ⟨i, hi'⟩ := (symbolItem_cases (data := data) hp).2 ht
        rw [hi'] at hi; cases hi
    · rw [he] at hi; cases hi
  · rintro ⟨⟨d, h, hp, ht, -⟩, h2⟩
    rw [(symbolItem_cases hp).1 ht]
    exact flagItem_panic.mpr h2

/-! ### Files -/

theorem header_iff {check : Bool} {symbols : List ElfSymbol} : HeaderOk check symbols ↔
    ∃ v e enc, versionsOf symbols = [v] ∧ encodingsOf symbols = [e] ∧ (check = true → v ∈ supportedVersions) ∧
      Encoding.fromStr e = some enc := by
  unfold HeaderOk
  rw [exactlyOne_iff isVersionSymbol_iff, exactlyOne_iff isEncodingSymbol_iff]
  have hsup : ∀ v, v ∈ supportedVersions ↔ v = c!"3" ∨ v = c!"4" := by simp [supportedVersions]
  constructor
  · rintro ⟨⟨v, hv⟩, ⟨e, he⟩, h3, s, hs, hn⟩
    refine ⟨v, e, ?_⟩
    have hee : e = c!"raw" ∨ e = c!"rzcobs" := by
      have hmem : ∀ x, s.name = some (c!"_defmt_encoding_ = " ++ x) → e = x := by
        intro x hx
        have : x ∈ symbols.filterMap (fun s => s.name.bind tryGetEncoding) :=
          List.mem_filterMap.mpr ⟨s, hs, by rw [hx]; exact encoding_iff.mpr rfl⟩
        rw [he] at this
        exact (List.mem_singleton.mp this).symm
      rcases hn with hn | hn
      · exact .inl (hmem _ hn)
      · exact .inr (hmem _ hn)
    have hvv : check = true → v ∈ supportedVersions := by
      intro hc
      obtain ⟨s, hs, name, hn, hver⟩ := h3 hc
      rw [hsup]
      have hmem : ∀ x, (x = c!"3" ∨ x = c!"4") → VersionName x name → v = x := by
        intro x hx hxv
        have : x ∈ symbols.filterMap (fun s => s.name.bind tryGetVersion) :=
          List.mem_filterMap.mpr ⟨s, hs, by rw [hn]; exact (version_iff hx).mpr hxv⟩
        rw [hv] at this
        exact (List.mem_singleton.mp this).symm
      rcases hver with h | h
      · exact .inl (hmem _ (.inl rfl) h)
      · exact .inr (hmem _ (.inr rfl) h)
    rcases hee with rfl | rfl
    · exact ⟨.raw, hv, he, hvv, rfl⟩
    · exact ⟨.rzcobs, hv, he, hvv, rfl⟩
  · rintro ⟨v, e, enc, hv, he, h3, h4⟩
    refine ⟨⟨v, hv⟩, ⟨e, he⟩, ?_, ?_⟩
    · intro hc
      have hmem : v ∈ versionsOf symbols := by rw [hv]; simp
      obtain ⟨s, hs, hn⟩ := List.mem_filterMap.mp hmem
      cases hname : s.name with
      | none => rw [hname] at hn; cases hn
      | some name =>
        rw [hname] at hn
        refine ⟨s, hs, name, hname, ?_⟩
        rcases (hsup v).mp (h3 hc) with rfl | rfl
        · exact .inl ((version_iff (.inl rfl)).mp hn)
        · exact .inr ((version_iff (.inr rfl)).mp hn)
    · have hmem : e ∈ encodingsOf symbols := by rw [he]; simp
      obtain ⟨s, hs, hn⟩ := List.mem_filterMap.mp hmem
      cases hname : s.name with
      | none => rw [hname] at hn; cases hn
      | some name =>
        rw [hname] at hn
        have := encoding_iff.mp hn
        refine ⟨s, hs, ?_⟩
        unfold Encoding.fromStr at h4
        split at h4
        · rename_i hr; left; rw [hname, this, hr]; rfl
        · split at h4
          · rename_i hr; right; rw [hname, this, hr]; rfl
          · cases h4

theorem secondPass_panic {data : Option (List UInt8)} {l : List ElfSymbol} {p : Pass} :
    secondPass data l p = .panic ↔ ∃ before s after', l = before ++ s :: after' ∧ (∃ p', secondPass data before p = .ok p') ∧
      symbolItem data s = .panic := by
  induction l generalizing p with
  | nil => simp [secondPass]
  | cons x l ih =>
    constructor
    · intro h
      unfold secondPass at h
      cases hx : symbolItem data x with
      | err e => rw [hx] at h; cases h
      | panic => exact ⟨[], x, l, rfl, ⟨p, rfl⟩, hx⟩
      | ok i =>
        rw [hx] at h
        simp only at h
        cases ha : addItem p i with
        | error e => rw [ha] at h; cases h
        | ok p1 =>
          rw [ha] at h
          obtain ⟨b, s, a, rfl, ⟨p', hp'⟩, hs⟩ := ih.mp h
          refine ⟨x :: b, s, a, rfl, ⟨p', ?_⟩, hs⟩
          unfold secondPass
          rw [hx]
          simp only [ha]
          exact hp'
    · rintro ⟨b, s, a, he, ⟨p', hp'⟩, hs⟩
      cases b with
      | nil =>
        simp only [List.nil_append, List.cons.injEq] at he
        obtain ⟨rfl, rfl⟩ := he
        unfold secondPass
        rw [hs]
      | cons y b =>
        simp only [List.cons_append, List.cons.injEq] at he
        obtain ⟨rfl, rfl⟩ := he
        unfold secondPass at hp' ⊢
        cases hx : symbolItem data x with
        | err e => rw [hx] at hp'; cases hp'
        | panic => rfl
        | ok i =>
          rw [hx] at hp'
          simp only at hp' ⊢
          cases ha : addItem p i with
          | error e => rw [ha] at hp'; cases hp'
          | ok p1 =>
            rw [ha] at hp'
            exact ih.mpr ⟨b, s, a, rfl, ⟨p', hp'⟩, hs⟩

theorem parseImpl_panic {f : ElfFile} {check : Bool} : parseImpl f check = .panic ↔
    ∃ data v e enc, f.defmtSection = some data ∧ versionsOf f.symbols = [v] ∧ encodingsOf f.symbols = [e] ∧
      (check = true → v ∈ supportedVersions) ∧ Encoding.fromStr e = some enc ∧
      secondPass data f.symbols emptyPass = .panic := by
  have hone : ∀ {l : List (List Char)} {v}, l.length ≤ 1 → l.head? = some v → l = [v] := by
    intro l v h1 h2
    match l, h1 with
    | [], _ => cases h2
    | [x], _ => simpa using h2
  constructor
  · intro h
    unfold parseImpl at h
    cases h1 : firstPass f.symbols none none with
    | error e => rw [h1] at h; cases h
    | ok x =>
      obtain ⟨v', e'⟩ := x
      rw [h1] at h
      simp only at h
      obtain ⟨a1, a2, a3, a4⟩ := firstPass_ok.mp h1
      simp only [Option.toList_none, List.nil_append] at a1 a2 a3 a4
      cases hd : f.defmtSection with
      | none => rw [hd] at h; cases v' <;> cases h
      | some data =>
        rw [hd] at h
        cases v' with
        | none => cases h
        | some v =>
          simp only at h
          split at h
          · cases h
          rename_i hc
          cases e' with
          | none => cases h
          | some e =>
            simp only at h
            cases hen : Encoding.fromStr e with
            | none => rw [hen] at h; cases h
            | some enc =>
              rw [hen] at h
              simp only at h
              refine ⟨data, v, e, enc, rfl, hone a1 a3.symm, hone a2 a4.symm, ?_, hen, ?_⟩
              · intro hcheck
                rw [hcheck] at hc
                simpa using hc
              · split at h
                · cases h
                · assumption
                · cases h
  · rintro ⟨data, v, e, enc, h1, h2, h3, h4, h5, h6⟩
    have hf : firstPass f.symbols none none = .ok (some v, some e) := by
      refine firstPass_ok.mpr ⟨?_, ?_, ?_, ?_⟩ <;> simp [h2, h3]
    unfold parseImpl
    rw [hf, h1]
    simp only
    rw [if_neg (by
      intro hc
      simp only [Bool.and_eq_true, Bool.not_eq_true', List.contains_eq_mem, decide_eq_false_iff_not] at hc
      exact hc.2 (h4 hc.1)), h5]
    simp only
    unfold emptyPass at h6
    rw [h6]

end Defmt.Elf
