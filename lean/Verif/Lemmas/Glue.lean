import Verif.Lemmas.Grammar
import Verif.Spec.Frame
import Verif.Spec.Macros
import Verif.Model.Encoder
/-!
# Parsing a format string with text put around it
-/

namespace Defmt.Parser

open Display

/-- no braces -/
def NoBraces (s : List Char) : Prop := '{' ∉ s ∧ '}' ∉ s

/-! ### Text -/

theorem undouble_append_right {c : Char} {q : List Char} (hq : c ∉ q) (raw : List Char) : undouble c (raw ++ q) = undouble c raw ++ q := by
  have hq0 : undouble c q = q := by
    fun_induction undouble c q with
    | case1 => rfl
    | case2 => rfl
    | case3 a b rest h ih => simp [h.1] at hq
    | case4 a b rest h ih => rw [ih (by simp at hq ⊢; exact hq.2)]
  fun_induction undouble c raw with
  | case1 => simpa using hq0
  | case2 a =>
    cases q with
    | nil => rfl
    | cons x q =>
      simp only [List.mem_cons, not_or] at hq
      simp only [List.cons_append, List.nil_append]
      rw [undouble, if_neg (fun h => hq.1 h.2.symm), hq0]
  | case3 a b rest h ih => simp only [List.cons_append]; rw [undouble, if_pos h, ih]
  | case4 a b rest h ih => simp only [List.cons_append] at ih ⊢; rw [undouble, if_neg h, ih]

theorem undouble_append_left {c : Char} (raw : List Char) : ∀ {pre : List Char}, c ∉ pre → undouble c (pre ++ raw) = pre ++ undouble c raw
  | [], _ => rfl
  | a :: pre, h => by
    simp only [List.mem_cons, not_or] at h
    have ih := undouble_append_left raw h.2
    rw [List.cons_append]
    cases hp : pre ++ raw with
    | nil =>
      have := List.append_eq_nil_iff.mp hp
      simp [this.1, this.2, undouble]
    | cons x xs =>
      rw [undouble, if_neg (fun hh => h.1 hh.1.symm), ← hp, ih]
      rfl

theorem checkBraces_left (raw : List Char) : ∀ {pre : List Char}, NoBraces pre → checkBraces false false (pre ++ raw) = checkBraces false false raw
  | [], _ => rfl
  | a :: pre, h => by
    unfold NoBraces at h
    simp only [List.mem_cons, not_or] at h
    rw [List.cons_append, checkBraces, if_neg (fun e => h.1.1 e.symm), if_neg (fun e => h.2.1 e.symm)]
    simp only [Bool.false_eq_true, if_false]
    exact checkBraces_left raw ⟨h.1.2, h.2.2⟩

theorem checkBraces_right {q : List Char} (hq : NoBraces q) (h0 : q ≠ []) (raw : List Char) : ∀ (o c : Bool),
    checkBraces o c (raw ++ q) = none ↔ checkBraces o c raw = none := by
  induction raw with
  | nil =>
    intro o c
    cases q with
    | nil => exact absurd rfl h0
    | cons x q =>
      unfold NoBraces at hq
      simp only [List.mem_cons, not_or] at hq
      have := checkBraces_left [] (pre := q) ⟨hq.1.2, hq.2.2⟩
      rw [List.append_nil] at this
      have e1 : ¬ x = '{' := fun e => hq.1.1 e.symm
      have e2 : ¬ x = '}' := fun e => hq.2.1 e.symm
      cases o <;> cases c <;> simp [this, checkBraces, e1, e2]
  | cons a raw ih =>
    intro o c
    rw [List.cons_append, checkBraces, checkBraces]
    split
    · exact ih _ _
    · split
      · exact ih _ _
      · split
        · simp
        · split
          · simp
          · exact ih _ _

/-- the text of a literal, if its braces are right -/
theorem pushLiteral_ok {fr fs : List Fragment} {raw : List Char} : pushLiteral fr raw = .ok fs ↔
    checkBraces false false raw = none ∧ fs = fr ++ [.literal (undouble '}' (undouble '{' raw))] := by
  unfold pushLiteral
  cases h : checkBraces false false raw with
  | none => simp; exact eq_comm
  | some e => simp

theorem undouble_plain {c : Char} {q : List Char} (hq : c ∉ q) : undouble c q = q := by
  have := undouble_append_right hq []
  simpa [undouble] using this

/-! ### Filling in -/

theorem filled_append {P : Parameter → List Char → Prop} {a b : List Fragment} {m : List Char} :
    Filled P (a ++ b) m ↔ ∃ x y, Filled P a x ∧ Filled P b y ∧ m = x ++ y := by
  induction a generalizing m with
  | nil =>
    constructor
    · intro h; exact ⟨[], m, .nil, h, rfl⟩
    · rintro ⟨x, y, hx, hy, rfl⟩; cases hx; exact hy
  | cons f a ih =>
    constructor
    · intro h
      cases h with
      | literal h =>
        obtain ⟨x, y, hx, hy, rfl⟩ := ih.mp h
        exact ⟨_, y, .literal hx, hy, by simp⟩
      | param hp h =>
        obtain ⟨x, y, hx, hy, rfl⟩ := ih.mp h
        exact ⟨_, y, .param hp hx, hy, by simp⟩
    · rintro ⟨x, y, hx, hy, rfl⟩
      cases hx with
      | literal h => rw [List.append_assoc]; exact .literal (ih.mpr ⟨_, _, h, hy, rfl⟩)
      | param hp h => rw [List.append_assoc]; exact .param hp (ih.mpr ⟨_, _, h, hy, rfl⟩)

theorem filled_literal {P : Parameter → List Char → Prop} {t m : List Char} : Filled P [.literal t] m ↔ m = t := by
  constructor
  · intro h; cases h with | literal h => cases h; simp
  · rintro rfl; have := Filled.literal (text := m) (Filled.nil (shown := P)); simpa using this

theorem filled_param {P : Parameter → List Char → Prop} {p : Parameter} {m : List Char} : Filled P [.param p] m ↔ P p m := by
  constructor
  · intro h; cases h with | param hp h => cases h; simpa using hp
  · intro h; have := Filled.param h (Filled.nil (shown := P)); simpa using this

theorem params_append' (a b : List Fragment) : params (a ++ b) = params a ++ params b := by
  induction a with
  | nil => rfl
  | cons f a ih => cases f <;> simp [params, ih]

theorem filled_congr {P Q : Parameter → List Char → Prop} : ∀ {fs : List Fragment} {m : List Char},
    (∀ p ∈ params fs, ∀ s, P p s → Q p s) → Filled P fs m → Filled Q fs m := by
  intro fs m h hf
  induction hf with
  | nil => exact .nil
  | literal _ ih => exact .literal (ih h)
  | param hp _ ih => exact .param (h _ (by simp [params]) _ hp) (ih fun p hp => h p (by simp [params, hp]))

/-- `fr'` is `fr` with text in front -/
structure Before (pre : List Char) (fr fr' : List Fragment) : Prop where
  par : params fr' = params fr
  fill : ∀ P m, Filled P fr' m ↔ ∃ m0, Filled P fr m0 ∧ m = pre ++ m0

theorem Before.append {pre : List Char} {fr fr' : List Fragment} (h : Before pre fr fr') (b : List Fragment) :
    Before pre (fr ++ b) (fr' ++ b) := by
  refine ⟨by rw [params_append', params_append', h.par], ?_⟩
  intro P m
  rw [filled_append]
  constructor
  · rintro ⟨x, y, hx, hy, rfl⟩
    obtain ⟨m0, h0, rfl⟩ := (h.fill P x).mp hx
    exact ⟨m0 ++ y, filled_append.mpr ⟨_, _, h0, hy, rfl⟩, by simp⟩
  · rintro ⟨m0, h0, rfl⟩
    obtain ⟨x, y, hx, hy, rfl⟩ := filled_append.mp h0
    exact ⟨pre ++ x, y, (h.fill P _).mpr ⟨x, hx, rfl⟩, hy, by simp⟩

theorem before_nil (pre : List Char) : Before pre [] [.literal pre] := by
  refine ⟨rfl, ?_⟩
  intro P m
  rw [filled_literal]
  constructor
  · rintro rfl; exact ⟨[], .nil, by simp⟩
  · rintro ⟨m0, h, rfl⟩; cases h; simp

theorem before_literal (pre t : List Char) : Before pre [.literal t] [.literal (pre ++ t)] := by
  refine ⟨rfl, ?_⟩
  intro P m
  simp only [filled_literal]
  constructor
  · rintro rfl; exact ⟨t, rfl, rfl⟩
  · rintro ⟨_, rfl, rfl⟩; rfl

/-! ### The scan -/

/-- state of the scan of `msg` and of the scan with text in front -/
inductive Shifted (pre : List Char) : List Fragment × Nat → List Fragment × Nat → Prop where
  | start : Shifted pre ([], 0) ([], 0)
  | later {fr fr' e} : Before pre fr fr' → Shifted pre (fr, e) (fr', pre.length + e)

theorem slice_shift (pre msg post : List Char) (a b : Nat) (h : b ≤ msg.length) :
    slice (pre ++ msg ++ post) (pre.length + a) (pre.length + b) = slice msg a b := by
  unfold slice
  rw [List.append_assoc, ← List.drop_drop, List.drop_left]
  by_cases hab : a ≤ b
  · rw [show pre.length + b - (pre.length + a) = b - a by omega, List.drop_append, List.take_append]
    have : b - a - (msg.drop a).length = 0 := by simp; omega
    rw [this]
    simp
  · rw [show pre.length + b - (pre.length + a) = 0 by omega, show b - a = 0 by omega]
    simp

theorem slice_start (pre msg post : List Char) (b : Nat) (h : b ≤ msg.length) :
    slice (pre ++ msg ++ post) 0 (pre.length + b) = pre ++ slice msg 0 b := by
  unfold slice
  simp only [List.drop_zero, Nat.sub_zero, List.append_assoc]
  rw [List.take_append, List.take_append]
  have : pre.length + b - pre.length = b := by omega
  rw [this, List.take_of_length_le (by omega)]
  have : b - msg.length = 0 := by omega
  rw [this]
  simp

/-- pushing the text before a parameter -/
theorem shifted_literal {pre msg post : List Char} (hpre : NoBraces pre) (h0 : pre ≠ []) {fr fr' : List Fragment} {e e' b : Nat}
    (hs : Shifted pre (fr, e) (fr', e')) (hb : b ≤ msg.length) :
    (∀ f1, (if b > e then pushLiteral fr (slice msg e b) else .ok fr) = .ok f1 →
      ∃ f1', (if pre.length + b > e' then pushLiteral fr' (slice (pre ++ msg ++ post) e' (pre.length + b)) else .ok fr') = .ok f1' ∧
        Before pre f1 f1') ∧
    (∀ f1', (if pre.length + b > e' then pushLiteral fr' (slice (pre ++ msg ++ post) e' (pre.length + b)) else .ok fr') = .ok f1' →
      ∃ f1, (if b > e then pushLiteral fr (slice msg e b) else .ok fr) = .ok f1) := by
  have hpos := List.length_pos_iff.mpr h0
  cases hs with
  | start =>
    rw [if_pos (show pre.length + b > 0 by omega), slice_start pre msg post b hb]
    by_cases hb0 : b > 0
    · rw [if_pos hb0]
      simp only [pushLiteral_ok, checkBraces_left _ hpre, undouble_append_left _ hpre.1, undouble_append_left _ hpre.2]
      refine ⟨?_, ?_⟩
      · rintro f1 ⟨h1, rfl⟩
        exact ⟨_, ⟨h1, rfl⟩, before_literal _ _⟩
      · rintro f1' ⟨h1, rfl⟩
        exact ⟨_, h1, rfl⟩
    · rw [if_neg hb0]
      have : slice msg 0 b = [] := by unfold slice; simp; omega
      rw [this, List.append_nil]
      refine ⟨?_, fun _ _ => ⟨_, rfl⟩⟩
      intro f1 hf
      injection hf with hf
      subst hf
      refine ⟨[.literal pre], pushLiteral_ok.mpr ⟨?_, ?_⟩, before_nil pre⟩
      · have := checkBraces_left [] hpre
        rw [List.append_nil] at this
        rw [this]; rfl
      · rw [undouble_plain hpre.1, undouble_plain hpre.2]; rfl
  | later hbe =>
    rw [slice_shift pre msg post e b hb]
    by_cases hbe' : b > e
    · rw [if_pos hbe', if_pos (by omega)]
      simp only [pushLiteral_ok]
      refine ⟨?_, ?_⟩
      · rintro f1 ⟨h1, rfl⟩
        exact ⟨_, ⟨h1, rfl⟩, hbe.append _⟩
      · rintro f1' ⟨h1, rfl⟩
        exact ⟨_, h1, rfl⟩
    · rw [if_neg hbe', if_neg (by omega)]
      refine ⟨?_, fun _ _ => ⟨_, rfl⟩⟩
      intro f1 hf
      injection hf with hf
      subst hf
      exact ⟨_, rfl, hbe⟩

theorem scan_param_eq {m : Mode} {s rest : List Char} {pos e n : Nat} {fr : List Fragment} (hh : rest.head? ≠ some '{') :
    scanLoop m s ('{' :: rest) false pos e n fr =
      match (if pos > e then pushLiteral fr (slice s e pos) else .ok fr) with
      | .error e => .err e
      | .ok fr' =>
        if '}' ∉ rest then .err .unmatchedOpenBracket
        else match parseParam m (rest.takeWhile (· ≠ '}')) with
          | .panic => .panic
          | .err e => .err e
          | .ok p => scanLoop m s rest false (pos + 1) (pos + 1 + (rest.takeWhile (· ≠ '}')).length + 1)
              (match p.index with | some _ => n | none => n + 1)
              (fr' ++ [.param { index := (match p.index with | some i => i | none => n), ty := p.ty, hint := p.hint }]) := by
  rw [scanLoop]
  simp only [Bool.false_eq_true, if_false, ne_eq, not_true, hh]
  cases (if pos > e then pushLiteral fr (slice s e pos) else .ok fr) with
  | error e => rfl
  | ok fr' =>
    simp only
    split
    · rfl
    · split
      · rename_i hp; rw [hp]
      · rename_i hp; rw [hp]
      · rename_i p hp
        rw [hp]
        simp only
        split <;> (rename_i hi; simp only [hi])

theorem scan_shift (m : Mode) {pre msg post : List Char} (hpre : NoBraces pre) (h0 : pre ≠ [])
    (hpost : ∀ c, post.head? = some c → c ≠ '{')
    (hbad : '}' ∉ post ∨ ∀ x, x <:+ msg → ∀ p, parseParam m (x ++ post.takeWhile (· ≠ '}')) ≠ .ok p) :
    ∀ (r d : List Char) (skip : Bool) (e e' n : Nat) (fr fr' : List Fragment), msg = d ++ r → Shifted pre (fr, e) (fr', e') → e ≤ msg.length →
    (∀ res, scanLoop m msg r skip d.length e n fr = .ok res →
      ∃ res', Shifted pre res res' ∧ res.2 ≤ msg.length ∧
        scanLoop m (pre ++ msg ++ post) (r ++ post) skip (pre.length + d.length) e' n fr' =
          scanLoop m (pre ++ msg ++ post) post false (pre.length + msg.length) res'.2
            (n + implicits (if skip then r.tail else r)) res'.1) ∧
    (∀ res', scanLoop m (pre ++ msg ++ post) (r ++ post) skip (pre.length + d.length) e' n fr' = .ok res' →
      ∃ res, scanLoop m msg r skip d.length e n fr = .ok res) := by
  intro r
  induction r with
  | nil =>
    intro d skip e e' n fr fr' hd hs he
    rw [List.append_nil] at hd
    subst hd
    refine ⟨?_, fun _ _ => ⟨_, rfl⟩⟩
    intro res hr
    rw [scanLoop] at hr
    injection hr with hr
    subst hr
    refine ⟨(fr', e'), hs, he, ?_⟩
    have hi : implicits (if skip then ([] : List Char).tail else []) = 0 := by cases skip <;> rfl
    rw [hi, List.nil_append]
    cases skip with
    | false => rfl
    | true =>
      cases post with
      | nil => rfl
      | cons c post =>
        have hc := hpost c rfl
        simp only [scanLoop, if_true, Bool.false_eq_true, if_false, ne_eq, hc, not_false_eq_true, Nat.add_zero]
  | cons c r ih =>
    intro d skip e e' n fr fr' hd hs he
    have hd' : msg = (d ++ [c]) ++ r := by rw [hd]; simp
    have hlen : (d ++ [c]).length = d.length + 1 := by simp
    cases skip with
    | true =>
      have := ih (d ++ [c]) false e e' n fr fr' hd' hs he
      rw [hlen] at this
      rw [List.cons_append, scanLoop, scanLoop]
      simpa only [if_true, List.tail_cons, Bool.false_eq_true, if_false, Nat.add_assoc] using this
    | false =>
      by_cases hc : c = '{'
      · subst hc
        by_cases hh : r.head? = some '{'
        · have := ih (d ++ ['{']) true e e' n fr fr' hd' hs he
          rw [hlen] at this
          have hh' : (r ++ post).head? = some '{' := by
            cases r with
            | nil => cases hh
            | cons x xs => simpa using hh
          have hi : implicits ('{' :: r) = implicits r.tail := by
            cases r with
            | nil => cases hh
            | cons x xs => simp at hh; subst hh; unfold implicits; rw [paramTexts_esc]; rfl
          rw [List.cons_append, scanLoop, scanLoop]
          simpa only [Bool.false_eq_true, if_false, ne_eq, not_true, hh, hh', if_true, hi, Nat.add_assoc] using this
        · have hh' : (r ++ post).head? ≠ some '{' := by
            cases r with
            | nil =>
              intro hx
              exact hpost _ hx rfl
            | cons x xs => simpa using hh
          rw [List.cons_append, scan_param_eq hh, scan_param_eq hh']
          obtain ⟨l1, l2⟩ := shifted_literal (msg := msg) (post := post) hpre h0 hs (b := d.length) (by rw [hd]; simp)
          have himp : implicits ('{' :: r) = (if (explicitIndex (r.takeWhile (· ≠ '}'))).isNone then 1 else 0) + implicits r := by
            unfold implicits
            rw [paramTexts_open hh, List.filter_cons]
            split
            · simp; omega
            · simp
          by_cases hm : '}' ∈ r
          · -- the parameter is within the message
            have hm' : '}' ∈ r ++ post := List.mem_append_left _ hm
            have ht : (r ++ post).takeWhile (· ≠ '}') = r.takeWhile (· ≠ '}') := by
              have hsp := split_param hm
              conv => lhs; rw [hsp]
              rw [List.append_assoc]
              apply takeWhile_app
              · intro x hx; exact mem_takeWhile (p := fun c => decide (c ≠ '}')) hx
              · simp
            have hend : d.length + 1 + (r.takeWhile (· ≠ '}')).length + 1 ≤ msg.length := by
              have hsp := congrArg List.length (split_param hm)
              rw [hd]
              simp only [List.length_append, List.length_cons] at hsp ⊢
              omega
            rw [ht]
            refine ⟨?_, ?_⟩
            · intro res hr
              cases hL : (if d.length > e then pushLiteral fr (slice msg e d.length) else .ok fr) with
              | error x => rw [hL] at hr; cases hr
              | ok f1 =>
                rw [hL] at hr
                obtain ⟨f1', hf1, hbf⟩ := l1 f1 hL
                rw [hf1]
                simp only [hm, not_true, if_false, hm'] at hr ⊢
                cases hp : parseParam m (r.takeWhile (· ≠ '}')) with
                | panic => rw [hp] at hr; cases hr
                | err x => rw [hp] at hr; cases hr
                | ok p =>
                  rw [hp] at hr
                  simp only at hr ⊢
                  have := (ih (d ++ ['{']) false (d.length + 1 + (r.takeWhile (· ≠ '}')).length + 1)
                    (pre.length + (d.length + 1 + (r.takeWhile (· ≠ '}')).length + 1))
                    (match p.index with | some _ => n | none => n + 1) _ _ hd' (.later (hbf.append _)) hend).1 res
                    (by rw [hlen]; exact hr)
                  obtain ⟨res', g1, g2, g3⟩ := this
                  refine ⟨res', g1, g2, ?_⟩
                  have hix := explicitIndex_parse hp
                  simp only [Bool.false_eq_true, if_false] at g3 ⊢
                  rw [himp, hix]
                  rw [hlen] at g3
                  have e1 : pre.length + d.length + 1 + (r.takeWhile (· ≠ '}')).length + 1 =
                      pre.length + (d.length + 1 + (r.takeWhile (· ≠ '}')).length + 1) := by omega
                  rw [e1, Nat.add_assoc pre.length d.length 1, g3]
                  congr 1
                  cases p.index with
                  | none => simp; omega
                  | some i => simp
            · intro res' hr
              cases hL : (if pre.length + d.length > e' then pushLiteral fr' (slice (pre ++ msg ++ post) e' (pre.length + d.length)) else .ok fr') with
              | error x => rw [hL] at hr; cases hr
              | ok f1' =>
                obtain ⟨f1, hf1⟩ := l2 f1' hL
                obtain ⟨f1'', hf1', hbf⟩ := l1 f1 hf1
                rw [hL] at hf1'
                injection hf1' with hf1'
                subst hf1'
                rw [hL] at hr
                rw [hf1]
                simp only [hm, not_true, if_false, hm'] at hr ⊢
                cases hp : parseParam m (r.takeWhile (· ≠ '}')) with
                | panic => rw [hp] at hr; cases hr
                | err x => rw [hp] at hr; cases hr
                | ok p =>
                  rw [hp] at hr
                  simp only at hr ⊢
                  have := (ih (d ++ ['{']) false (d.length + 1 + (r.takeWhile (· ≠ '}')).length + 1)
                    (pre.length + (d.length + 1 + (r.takeWhile (· ≠ '}')).length + 1))
                    (match p.index with | some _ => n | none => n + 1) _ _ hd' (.later (hbf.append _)) hend).2 res'
                    (by
                      rw [hlen, ← hr]
                      congr 1
                      all_goals omega)
                  rw [hlen] at this
                  exact this
          · -- the parameter would go on after the message
            refine ⟨?_, ?_⟩
            · intro res hr
              cases hL : (if d.length > e then pushLiteral fr (slice msg e d.length) else .ok fr) with
              | error x => rw [hL] at hr; cases hr
              | ok f1 => rw [hL] at hr; simp [hm] at hr
            · intro res' hr
              exfalso
              cases hL : (if pre.length + d.length > e' then pushLiteral fr' (slice (pre ++ msg ++ post) e' (pre.length + d.length)) else .ok fr') with
              | error x => rw [hL] at hr; cases hr
              | ok f1' =>
                rw [hL] at hr
                simp only at hr
                rcases hbad with hb | hb
                · rw [if_pos (by simp only [List.mem_append, not_or]; exact ⟨hm, hb⟩)] at hr
                  cases hr
                · split at hr
                  · cases hr
                  · have ht : (r ++ post).takeWhile (· ≠ '}') = r ++ post.takeWhile (· ≠ '}') := by
                      rw [List.takeWhile_append_of_pos]
                      intro x hx
                      simp only [ne_eq, decide_eq_true_eq]
                      rintro rfl
                      exact hm hx
                    rw [ht] at hr
                    split at hr
                    · cases hr
                    · cases hr
                    · rename_i p hp
                      exact hb r ⟨d ++ ['{'], by rw [hd]; simp⟩ p hp
      · have := ih (d ++ [c]) false e e' n fr fr' hd' hs he
        rw [hlen] at this
        have hi : implicits (c :: r) = implicits r := by unfold implicits; rw [paramTexts_other hc]
        rw [List.cons_append, scanLoop, scanLoop]
        simpa only [Bool.false_eq_true, if_false, ne_eq, hc, not_false_eq_true, if_true, hi, Nat.add_assoc] using this

/-! ### The text after the message -/

/-- `{:?}` and text, several times -/
def valuesText : List (List Char) → List Char
  | [] => []
  | q :: qs => c!"{:?}" ++ q ++ valuesText qs

/-- what that means -/
def valuesMeaning (n : Nat) : List (List Char) → List Fragment
  | [] => []
  | q :: qs => .param ⟨n, .format, some .debug⟩ :: .literal q :: valuesMeaning (n + 1) qs

theorem pushLiteral_plain {fr : List Fragment} {q : List Char} (hq : NoBraces q) : pushLiteral fr q = .ok (fr ++ [.literal q]) := by
  refine pushLiteral_ok.mpr ⟨?_, ?_⟩
  · have := checkBraces_left [] hq
    rw [List.append_nil] at this
    rw [this]; rfl
  · rw [undouble_plain hq.1, undouble_plain hq.2]

theorem parseParam_debug (m : Mode) : parseParam m c!":?" = .ok ⟨none, .format, some .debug⟩ := by cases m <;> rfl

theorem scan_values (m : Mode) (s : List Char) : ∀ (qs : List (List Char)) (a raw q : List Char) (n : Nat) (fr out : List Fragment),
    s = a ++ raw ++ (q ++ valuesText qs) → NoBraces q → q ≠ [] → (∀ x ∈ qs, NoBraces x ∧ x ≠ []) →
    ((∃ r, scanLoop m s (q ++ valuesText qs) false (a.length + raw.length) a.length n fr = .ok r ∧ finish s r = .ok out) ↔
      ∃ f1, pushLiteral fr (raw ++ q) = .ok f1 ∧ out = f1 ++ valuesMeaning n qs) := by
  intro qs
  induction qs with
  | nil =>
    intro a raw q n fr out hs hq h0 _
    simp only [valuesText, List.append_nil, valuesMeaning] at hs ⊢
    have hsc : scanLoop m s q false (a.length + raw.length) a.length n fr = .ok (fr, a.length) := by
      have := scan_inner m s q [] hq.1 (a.length + raw.length) a.length n fr
      rw [List.append_nil] at this
      rw [this]; rfl
    rw [hsc]
    have hpos := List.length_pos_iff.mpr h0
    have hfin : finish s (fr, a.length) = pushLiteral fr (raw ++ q) := by
      unfold finish
      rw [if_pos (by rw [hs]; simp only [List.length_append]; omega)]
      rw [hs]; simp
    constructor
    · rintro ⟨r, hr, hf⟩
      injection hr with hr
      subst hr
      rw [hfin] at hf
      exact ⟨out, hf, rfl⟩
    · rintro ⟨f1, hf, rfl⟩
      exact ⟨_, rfl, by rw [hfin, hf]⟩
  | cons q1 qs ih =>
    intro a raw q n fr out hs hq h0 hall
    have hq1 := hall q1 (by simp)
    have hpos := List.length_pos_iff.mpr h0
    have hlit : pushLiteral fr (slice s a.length (a.length + raw.length + q.length)) = pushLiteral fr (raw ++ q) := by
      have : slice s a.length (a.length + raw.length + q.length) = raw ++ q := by
        rw [hs, show a ++ raw ++ (q ++ valuesText (q1 :: qs)) = a ++ (raw ++ q) ++ valuesText (q1 :: qs) by simp,
          show a.length + raw.length + q.length = a.length + (raw ++ q).length by simp; omega, slice_mid]
      rw [this]
    have hsc : ∀ f1, pushLiteral fr (raw ++ q) = .ok f1 →
        scanLoop m s (q ++ valuesText (q1 :: qs)) false (a.length + raw.length) a.length n fr =
        scanLoop m s (q1 ++ valuesText qs) false ((a ++ raw ++ q ++ c!"{:?}").length + ([] : List Char).length)
          (a ++ raw ++ q ++ c!"{:?}").length (n + 1) (f1 ++ [.param ⟨n, .format, some .debug⟩]) := by
      intro f1 hf1
      rw [scan_inner m s q _ hq.1]
      have e : valuesText (q1 :: qs) = '{' :: (c!":?" ++ '}' :: (q1 ++ valuesText qs)) := by simp [valuesText]
      have ht : (c!":?" ++ '}' :: (q1 ++ valuesText qs)).takeWhile (· ≠ '}') = c!":?" := by simp
      rw [e, scan_param_eq (by simp), if_pos (by omega), hlit, hf1]
      simp only
      rw [if_neg (by simp), ht, parseParam_debug]
      simp only
      rw [show c!":?" ++ '}' :: (q1 ++ valuesText qs) = c!":?}" ++ (q1 ++ valuesText qs) by simp, scan_inner m s c!":?}" _ (by decide)]
      congr 1 <;> simp <;> omega
    cases hf : pushLiteral fr (raw ++ q) with
    | error x =>
      simp only [reduceCtorEq, false_and, exists_false, iff_false]
      rintro ⟨r, hr, _⟩
      rw [scan_inner m s q _ hq.1] at hr
      have e : valuesText (q1 :: qs) = '{' :: (c!":?" ++ '}' :: (q1 ++ valuesText qs)) := by simp [valuesText]
      rw [e, scan_param_eq (by simp), if_pos (by omega), hlit, hf] at hr
      cases hr
    | ok f1 =>
      rw [hsc f1 hf]
      have := ih (a ++ raw ++ q ++ c!"{:?}") [] q1 (n + 1) (f1 ++ [.param ⟨n, .format, some .debug⟩]) out
        (by rw [hs]; simp [valuesText]) hq1.1 hq1.2 (fun x hx => hall x (by simp [hx]))
      rw [this, List.nil_append, pushLiteral_plain hq1.1]
      constructor
      · rintro ⟨f2, h2, rfl⟩
        injection h2 with h2
        subst h2
        exact ⟨f1, rfl, by simp [valuesMeaning]⟩
      · rintro ⟨f2, h2, rfl⟩
        injection h2 with h2
        subst h2
        exact ⟨_, rfl, by simp [valuesMeaning]⟩

/-- text in front of and after the fragments -/
structure Around (pre q : List Char) (fs fs' : List Fragment) : Prop where
  par : params fs' = params fs
  fill : ∀ P m, Filled P fs' m ↔ ∃ m0, Filled P fs m0 ∧ m = pre ++ m0 ++ q

/-- the end of the message: pushing the rest with the text after it -/
theorem shifted_end {pre msg q : List Char} (hpre : NoBraces pre) (h0 : pre ≠ []) (hq : NoBraces q) (hq0 : q ≠ [])
    {r r' : List Fragment × Nat} (hs : Shifted pre r r') (he : r.2 ≤ msg.length) :
    (∀ fs, finish msg r = .ok fs → ∃ f1, pushLiteral r'.1 ((pre ++ msg).drop r'.2 ++ q) = .ok f1 ∧ Around pre q fs f1) ∧
    (∀ f1, pushLiteral r'.1 ((pre ++ msg).drop r'.2 ++ q) = .ok f1 → ∃ fs, finish msg r = .ok fs) := by
  have key : ∀ raw, checkBraces false false (raw ++ q) = none ↔ checkBraces false false raw = none :=
    fun raw => checkBraces_right hq hq0 raw false false
  cases hs with
  | start =>
    unfold finish
    simp only [List.drop_zero, pushLiteral_ok, List.append_assoc, checkBraces_left _ hpre, undouble_append_left _ hpre.1,
      undouble_append_left _ hpre.2, key, undouble_append_right hq.1, undouble_append_right hq.2]
    by_cases hm : msg = []
    · subst hm
      simp only [List.length_nil, ne_eq, not_true, if_false]
      refine ⟨?_, fun _ _ => ⟨_, rfl⟩⟩
      intro fs hfs
      injection hfs with hfs
      subst hfs
      refine ⟨_, ⟨rfl, rfl⟩, rfl, ?_⟩
      intro P m
      simp only [undouble, List.nil_append, filled_literal]
      constructor
      · rintro rfl; exact ⟨[], .nil, by simp⟩
      · rintro ⟨m0, h, rfl⟩; cases h; simp
    · have : (0 : Nat) ≠ msg.length := by have := List.length_pos_iff.mpr hm; omega
      rw [if_pos this]
      simp only [pushLiteral_ok]
      refine ⟨?_, ?_⟩
      · rintro fs ⟨h1, rfl⟩
        refine ⟨_, ⟨h1, rfl⟩, rfl, ?_⟩
        intro P m
        simp only [List.nil_append, filled_literal]
        constructor
        · rintro rfl; exact ⟨_, rfl, by simp⟩
        · rintro ⟨_, rfl, rfl⟩; simp
      · rintro f1 ⟨h1, rfl⟩
        exact ⟨_, h1, rfl⟩
  | @later fr fr' e hb =>
    unfold finish
    have hdrop : (pre ++ msg).drop (pre.length + e) = msg.drop e := by rw [← List.drop_drop]; simp
    simp only [hdrop, pushLiteral_ok, key, undouble_append_right hq.1, undouble_append_right hq.2]
    by_cases hm : e = msg.length
    · subst hm
      simp only [ne_eq, not_true, if_false, List.drop_length]
      refine ⟨?_, fun _ _ => ⟨_, rfl⟩⟩
      intro fs hfs
      injection hfs with hfs
      subst hfs
      refine ⟨_, ⟨rfl, rfl⟩, ?_, ?_⟩
      · rw [params_append', hb.par]; simp [params]
      · intro P m
        rw [filled_append]
        simp only [undouble, List.nil_append, filled_literal, hb.fill]
        constructor
        · rintro ⟨_, _, ⟨m0, hm0, rfl⟩, rfl, rfl⟩; exact ⟨m0, hm0, rfl⟩
        · rintro ⟨m0, hm0, rfl⟩; exact ⟨_, _, ⟨m0, hm0, rfl⟩, rfl, rfl⟩
    · simp only [ne_eq, hm, not_false_eq_true, if_true, pushLiteral_ok]
      refine ⟨?_, ?_⟩
      · rintro fs ⟨h1, rfl⟩
        refine ⟨_, ⟨h1, rfl⟩, ?_, ?_⟩
        · rw [params_append', params_append', hb.par]; rfl
        · intro P m
          simp only [filled_append, filled_literal, hb.fill]
          constructor
          · rintro ⟨_, _, ⟨m0, hm0, rfl⟩, rfl, rfl⟩; exact ⟨_, ⟨m0, _, hm0, rfl, rfl⟩, by simp⟩
          · rintro ⟨_, ⟨m0, _, hm0, rfl, rfl⟩, rfl⟩; exact ⟨_, _, ⟨m0, hm0, rfl⟩, rfl, by simp⟩
      · rintro f1 ⟨h1, rfl⟩
        exact ⟨_, h1, rfl⟩

/-- the fragments before the checks -/
def Scanned (m : Mode) (s : List Char) (fs : List Fragment) : Prop :=
  ∃ r, scanLoop m s s false 0 0 0 [] = .ok r ∧ finish s r = .ok fs

/-- The parameters are as `parse` requires them. -/
def GoodParams (ps : List Parameter) : Prop := (∃ n, n ≤ maxArgs ∧ Dense ps n) ∧ Consistent ps

theorem checks_iff (fs : List Fragment) :
    (∃ args, checkArgs [] fs = .ok args ∧ firstUnused 0 args = none) ↔ GoodParams (params fs) := by
  constructor
  · rintro ⟨args, h3, h4⟩
    have hi := checkArgs_inv _ AInv.nil h3
    simp only [List.nil_append] at hi
    rw [firstUnused_none] at h4
    refine ⟨⟨args.length, checkArgs_bound h3, ?_, ?_⟩, ?_⟩
    · intro p hp
      obtain ⟨t, ht, _⟩ := hi.typed p hp
      exact (List.getElem?_eq_some_iff.mp ht).1
    · intro i hi'
      obtain ⟨t, ht⟩ := h4 i hi'
      obtain ⟨p, hp, hpi, _⟩ := hi.used i t ht
      exact ⟨p, hp, hpi⟩
    · intro p hp q hq hpq
      obtain ⟨t, ht, hk⟩ := hi.typed p hp
      obtain ⟨t', ht', hk'⟩ := hi.typed q hq
      rw [hpq, ht'] at ht
      simp only [Option.some.injEq] at ht
      subst ht
      exact hk.symm.trans hk'
  · rintro ⟨⟨n, hn, hd⟩, hc⟩
    obtain ⟨args, ha⟩ := checkArgs_complete fs AInv.nil (by simpa using hc) (fun p hp => by have := hd.1 p hp; omega)
    have hi := checkArgs_inv _ AInv.nil ha
    simp only [List.nil_append] at hi
    refine ⟨args, ha, ?_⟩
    rw [firstUnused_none]
    intro j hj
    have hjn : j < n := by
      rcases hi.last with rfl | ⟨p, hp, hl⟩
      · simp at hj
      · have := hd.1 p hp; omega
    obtain ⟨p, hp, hpi⟩ := hd.2 j hjn
    obtain ⟨t, ht, _⟩ := hi.typed p hp
    exact ⟨t, by rw [← hpi]; exact ht⟩

theorem parse_iff {s : List Char} {m : Mode} {fs : List Fragment} : parse s m = .ok fs ↔
    Scanned m s fs ∧ GoodParams (params fs) := by
  unfold Scanned
  rw [← checks_iff]
  constructor
  · intro h
    obtain ⟨fr, e, args, h1, h2, h3, h4⟩ := parse_ok h
    exact ⟨⟨(fr, e), h1, h2⟩, args, h3, h4⟩
  · rintro ⟨⟨r, h1, h2⟩, args, h3, h4⟩
    exact parse_intro (fr := r.1) (e := r.2) h1 h2 h3 h4

/-- A message with text in front and text and values after it. -/
theorem parse_values (m : Mode) {pre msg q : List Char} {qs : List (List Char)} (hpre : NoBraces pre) (h0 : pre ≠ [])
    (hq : NoBraces q) (hq0 : q ≠ []) (hqs : ∀ x ∈ qs, NoBraces x ∧ x ≠ [])
    (hbad : qs = [] ∨ ∀ x, x <:+ msg → ∀ p, parseParam m (x ++ (q ++ c!"{:?")) ≠ .ok p) :
    (∀ fs', Scanned m (pre ++ msg ++ (q ++ valuesText qs)) fs' →
      ∃ fs f1, Scanned m msg fs ∧ Around pre q fs f1 ∧ fs' = f1 ++ valuesMeaning (implicits msg) qs) ∧
    (∀ fs, Scanned m msg fs →
      ∃ f1, Scanned m (pre ++ msg ++ (q ++ valuesText qs)) (f1 ++ valuesMeaning (implicits msg) qs) ∧ Around pre q fs f1) := by
  have hsq : ∀ c, (q ++ valuesText qs).head? = some c → c ≠ '{' := by
    intro c hc
    cases q with
    | nil => exact absurd rfl hq0
    | cons x q =>
      simp at hc
      subst hc
      intro e
      exact hq.1 (by simp [e])
  have htw : qs ≠ [] → (q ++ valuesText qs).takeWhile (· ≠ '}') = q ++ c!"{:?" := by
    intro hne
    cases qs with
    | nil => exact absurd rfl hne
    | cons q1 qs =>
      rw [List.takeWhile_append_of_pos]
      · simp [valuesText]
      · intro x hx
        simp only [ne_eq, decide_eq_true_eq]
        rintro rfl
        exact hq.2 hx
  have hb : '}' ∉ q ++ valuesText qs ∨ ∀ x, x <:+ msg → ∀ p, parseParam m (x ++ (q ++ valuesText qs).takeWhile (· ≠ '}')) ≠ .ok p := by
    by_cases hne : qs = []
    · subst hne
      left
      simpa [valuesText] using hq.2
    · right
      rw [htw hne]
      rcases hbad with h | h
      · exact absurd h hne
      · exact h
  have sim := scan_shift m hpre h0 hsq hb msg [] false 0 0 0 [] [] rfl .start (Nat.zero_le _)
  simp only [List.length_nil, Nat.add_zero, Bool.false_eq_true, if_false, Nat.zero_add] at sim
  have hstart : scanLoop m (pre ++ msg ++ (q ++ valuesText qs)) (pre ++ msg ++ (q ++ valuesText qs)) false 0 0 0 [] =
      scanLoop m (pre ++ msg ++ (q ++ valuesText qs)) (msg ++ (q ++ valuesText qs)) false pre.length 0 0 [] := by
    conv => lhs; arg 3; rw [List.append_assoc]
    rw [scan_inner m _ pre _ hpre.1]
    simp
  unfold Scanned
  rw [hstart]
  -- the scan of the rest, once the message is scanned
  have hrest : ∀ fs' r r' n, Shifted pre r r' → r.2 ≤ msg.length →
      ((∃ x, scanLoop m (pre ++ msg ++ (q ++ valuesText qs)) (q ++ valuesText qs) false (pre.length + msg.length) r'.2 n r'.1 = .ok x ∧
        finish (pre ++ msg ++ (q ++ valuesText qs)) x = .ok fs') ↔
      ∃ f1, pushLiteral r'.1 ((pre ++ msg).drop r'.2 ++ q) = .ok f1 ∧ fs' = f1 ++ valuesMeaning n qs) := by
    intro fs' r r' n hs he
    have hle : r'.2 ≤ (pre ++ msg).length := by
      cases hs with
      | start => simp
      | later _ => simp at he ⊢; omega
    have hlen : ((pre ++ msg).take r'.2).length = r'.2 := by rw [List.length_take]; omega
    have hlen2 : ((pre ++ msg).drop r'.2).length = (pre ++ msg).length - r'.2 := by rw [List.length_drop]
    have := scan_values m (pre ++ msg ++ (q ++ valuesText qs)) qs ((pre ++ msg).take r'.2) ((pre ++ msg).drop r'.2) q n r'.1 fs'
      (by rw [List.take_append_drop]) hq hq0 hqs
    rw [hlen, hlen2] at this
    rw [show r'.2 + ((pre ++ msg).length - r'.2) = pre.length + msg.length by rw [List.length_append] at hle ⊢; omega] at this
    exact this
  refine ⟨?_, ?_⟩
  · rintro fs' ⟨x, hx, hf⟩
    obtain ⟨r, hr⟩ := sim.2 x hx
    obtain ⟨r', hs, he, hsc⟩ := sim.1 r hr
    rw [hsc] at hx
    obtain ⟨f1, h1, h2⟩ := (hrest fs' r r' _ hs he).mp ⟨x, hx, hf⟩
    obtain ⟨e1, e2⟩ := shifted_end hpre h0 hq hq0 hs he
    obtain ⟨fs, hfs⟩ := e2 f1 h1
    obtain ⟨f1', h1', ha⟩ := e1 fs hfs
    rw [h1] at h1'
    injection h1' with h1'
    subst h1'
    exact ⟨fs, f1, ⟨r, hr, hfs⟩, ha, h2⟩
  · rintro fs ⟨r, hr, hfs⟩
    obtain ⟨r', hs, he, hsc⟩ := sim.1 r hr
    obtain ⟨f1, h1, ha⟩ := (shifted_end hpre h0 hq hq0 hs he).1 fs hfs
    rw [hsc]
    exact ⟨f1, (hrest _ r r' _ hs he).mpr ⟨f1, h1, rfl⟩, ha⟩

end Defmt.Parser
