import Verif.Spec.GrammarAll
import Verif.Lemmas.ParserPanic
/-!
# Lemmas: the scan for all format strings
-/

namespace Defmt.Parser

/-- parameters read from their texts -/
def readParams (m : Mode) : List (List Char) → Nat → List Fragment → Outcome Error (List Fragment × Nat)
  | [], n, fr => .ok (fr, n)
  | t :: ts, n, fr =>
    match parseParam m t with
    | .panic => .panic
    | .err e => .err e
    | .ok p => readParams m ts (match p.index with | some _ => n | none => n + 1)
        (fr ++ [.param { index := (match p.index with | some i => i | none => n), ty := p.ty, hint := p.hint }])

/-- go on after parameters -/
def andThen (r : Outcome Error (List Fragment × Nat)) (f : List Fragment → Nat → Outcome Error (List Fragment × Nat)) :
    Outcome Error (List Fragment × Nat) :=
  match r with
  | .panic => .panic
  | .err e => .err e
  | .ok (fr, n) => f fr n

theorem takeWhile_close {text rest : List Char} (hcl : '}' ∉ text) : (text ++ '}' :: rest).takeWhile (· ≠ '}') = text := by
  apply takeWhile_app
  · intro x hx
    simp only [ne_eq, decide_eq_true_eq]
    rintro rfl
    exact hcl hx
  · simp

theorem takeWhile_all {text : List Char} (hcl : '}' ∉ text) : text.takeWhile (· ≠ '}') = text := by
  have := takeWhile_app (fun c => decide (c ≠ '}')) text [] (by
    intro x hx
    simp only [ne_eq, decide_eq_true_eq]
    rintro rfl
    exact hcl hx) (by simp)
  simpa using this

theorem head_app {text rest : List Char} (hh : text.head? ≠ some '{') : (text ++ '}' :: rest).head? ≠ some '{' := by
  cases text with
  | nil => simp
  | cons x xs => simpa using hh

/-- one parameter, at the point where it opens -/
theorem scan_open (m : Mode) (s : List Char) {text rest : List Char} {pos e n : Nat} {fr : List Fragment}
    (hh : text.head? ≠ some '{') (hcl : '}' ∉ text) :
    scanLoop m s ('{' :: (text ++ '}' :: rest)) false pos e n fr =
      match (if pos > e then pushLiteral fr (slice s e pos) else .ok fr) with
      | .error e => .err e
      | .ok fr => andThen (readParams m [text] n fr) fun fr n =>
          scanLoop m s (text ++ '}' :: rest) false (pos + 1) (pos + 1 + text.length + 1) n fr := by
  have htw := takeWhile_close (rest := rest) hcl
  rw [scanLoop]
  simp only [Bool.false_eq_true, if_false, ne_eq, not_true, head_app hh]
  cases (if pos > e then pushLiteral fr (slice s e pos) else .ok fr) with
  | error e => rfl
  | ok fr =>
    simp only
    rw [if_neg (by simp)]
    simp only [ne_eq] at htw
    rw [htw]
    simp only [readParams, andThen]
    cases parseParam m text with
    | panic => rfl
    | err e => rfl
    | ok p =>
      obtain ⟨index, ty, hint⟩ := p
      cases index <;> rfl

theorem readParams_cons (m : Mode) (t : List Char) (ts : List (List Char)) (n : Nat) (fr : List Fragment) :
    readParams m (t :: ts) n fr = andThen (readParams m [t] n fr) fun fr n => readParams m ts n fr := by
  simp only [readParams, andThen]
  cases parseParam m t <;> rfl

theorem andThen_assoc (r : Outcome Error (List Fragment × Nat)) (f g) :
    andThen (andThen r f) g = andThen r fun fr n => andThen (f fr n) g := by
  cases r <;> rfl

/-- the text of a parameter, after its opening -/
theorem scan_inside (m : Mode) (s rest : List Char) : ∀ (text : List Char), '}' ∉ text → ∀ (pos n : Nat) (fr : List Fragment),
    scanLoop m s (text ++ '}' :: rest) false pos (pos + text.length + 1) n fr =
      andThen (readParams m (paramTexts text) n fr) fun fr n =>
        scanLoop m s rest false (pos + text.length + 1) (pos + text.length + 1) n fr := by
  intro text
  fun_induction paramTexts text with
  | case1 =>
    intro _ pos n fr
    simp only [List.nil_append, readParams, andThen, List.length_nil, Nat.add_zero]
    rw [scanLoop]
    simp
  | case2 r ih =>
    intro hcl pos n fr
    simp only [List.mem_cons, not_or] at hcl
    simp only [List.cons_append, List.length_cons]
    rw [scanLoop]
    simp only [Bool.false_eq_true, if_false, ne_eq, not_true, List.head?_cons, if_true]
    rw [scanLoop]
    simp only [if_true]
    have := ih hcl.2.2 (pos + 1 + 1) n fr
    rw [show pos + 1 + 1 + r.length + 1 = pos + (r.length + 1 + 1) + 1 by omega] at this
    exact this
  | case3 r h ih =>
    intro hcl pos n fr
    simp only [List.mem_cons, not_or] at hcl
    have hh : r.head? ≠ some '{' := by
      cases r with
      | nil => simp
      | cons x xs => simp only [List.head?_cons, ne_eq, Option.some.injEq]; rintro rfl; exact h _ rfl
    rw [List.cons_append, scan_open m s hh hcl.2, if_neg (by simp; omega), readParams_cons, andThen_assoc, takeWhile_all hcl.2]
    simp only
    congr 1
    funext fr n
    have := ih hcl.2 (pos + 1) n fr
    rw [this]
    simp only [List.length_cons, show pos + 1 + r.length + 1 = pos + (r.length + 1) + 1 by omega]
  | case4 c r h1 h2 ih =>
    intro hcl pos n fr
    simp only [List.mem_cons, not_or] at hcl
    have hc : c ≠ '{' := by rintro rfl; exact h2 rfl
    rw [List.cons_append, scanLoop]
    simp only [Bool.false_eq_true, if_false, ne_eq, hc, not_false_eq_true, if_true, List.length_cons]
    have := ih hcl.2 (pos + 1) n fr
    rw [show pos + 1 + r.length + 1 = pos + (r.length + 1) + 1 by omega] at this
    exact this

theorem paramTexts_text {text : List Char} (hcl : '}' ∉ text) (hh : text.head? ≠ some '{') :
    paramTexts ('{' :: text) = text :: paramTexts text := by
  rw [paramTexts_open hh, takeWhile_all hcl]

/-- a whole parameter -/
theorem scan_param (m : Mode) (s : List Char) {text rest : List Char} {pos e n : Nat} {fr : List Fragment}
    (hh : text.head? ≠ some '{') (hcl : '}' ∉ text) :
    scanLoop m s ('{' :: (text ++ '}' :: rest)) false pos e n fr =
      match (if pos > e then pushLiteral fr (slice s e pos) else .ok fr) with
      | .error e => .err e
      | .ok fr => andThen (readParams m (text :: paramTexts text) n fr) fun fr n =>
          scanLoop m s rest false (pos + 1 + text.length + 1) (pos + 1 + text.length + 1) n fr := by
  rw [scan_open m s hh hcl]
  cases (if pos > e then pushLiteral fr (slice s e pos) else .ok fr) with
  | error e => rfl
  | ok fr =>
    simp only
    rw [readParams_cons m text (paramTexts text), andThen_assoc]
    congr 1
    funext fr n
    exact scan_inside m s rest text hcl _ _ _

theorem readParams_ok (m : Mode) : ∀ (ts : List (List Char)) (n : Nat) (fr : List Fragment) (fr' : List Fragment) (n' : Nat),
    readParams m ts n fr = .ok (fr', n') ↔ ∃ ps, fr' = fr ++ ps ∧ Numbered m n ts ps n' := by
  intro ts
  induction ts with
  | nil =>
    intro n fr fr' n'
    simp only [readParams, Outcome.ok.injEq, Prod.mk.injEq]
    constructor
    · rintro ⟨rfl, rfl⟩; exact ⟨[], by simp, .nil⟩
    · rintro ⟨ps, rfl, h⟩; cases h; simp
  | cons t ts ih =>
    intro n fr fr' n'
    rw [readParams]
    constructor
    · intro h
      cases hp : parseParam m t with
      | panic => rw [hp] at h; cases h
      | err e => rw [hp] at h; cases h
      | ok p =>
        rw [hp] at h
        simp only at h
        obtain ⟨ps, rfl, h2⟩ := (ih _ _ _ _).mp h
        have hpt := parseParam_iff.mp hp
        obtain ⟨index, ty, hint⟩ := p
        cases index with
        | none => exact ⟨_, by simp, .implicit hpt h2⟩
        | some i => exact ⟨_, by simp, .explicit hpt h2⟩
    · rintro ⟨ps, rfl, h⟩
      cases h with
      | explicit hp h => rw [parseParam_iff.mpr hp]; exact (ih _ _ _ _).mpr ⟨_, by simp, h⟩
      | implicit hp h => rw [parseParam_iff.mpr hp]; exact (ih _ _ _ _).mpr ⟨_, by simp, h⟩

theorem readParams_panic (m : Mode) : ∀ (ts : List (List Char)) (n : Nat) (fr : List Fragment),
    readParams m ts n fr = .panic ↔ ∃ a bad b, ts = a ++ bad :: b ∧ (∀ t ∈ a, ∃ p, ParamText m t p) ∧ Misread bad := by
  intro ts
  induction ts with
  | nil =>
    intro n fr
    simp only [readParams, reduceCtorEq, false_iff]
    rintro ⟨a, bad, b, h, -⟩
    cases a <;> cases h
  | cons t ts ih =>
    intro n fr
    rw [readParams]
    cases hp : parseParam m t with
    | panic =>
      simp only [true_iff]
      exact ⟨[], t, ts, rfl, by simp, parseParam_panic_iff.mp hp⟩
    | err e =>
      simp only [reduceCtorEq, false_iff]
      rintro ⟨a, bad, b, h, h1, h2⟩
      cases a with
      | nil => cases h; rw [parseParam_panic_iff.mpr h2] at hp; cases hp
      | cons x a =>
        cases h
        obtain ⟨p, h3⟩ := h1 t (by simp)
        rw [parseParam_iff.mpr h3] at hp; cases hp
    | ok p =>
      simp only
      rw [ih]
      constructor
      · rintro ⟨a, bad, b, rfl, h1, h2⟩
        refine ⟨t :: a, bad, b, rfl, ?_, h2⟩
        intro x hx
        rcases List.mem_cons.mp hx with rfl | hx
        · exact ⟨p, parseParam_iff.mp hp⟩
        · exact h1 x hx
      · rintro ⟨a, bad, b, h, h1, h2⟩
        cases a with
        | nil => cases h; rw [parseParam_panic_iff.mpr h2] at hp; cases hp
        | cons x a => cases h; exact ⟨a, bad, b, rfl, fun x hx => h1 x (by simp [hx]), h2⟩

/-- the text before a parameter -/
theorem lit_step {s pre raw tail : List Char} {fr fr' : List Fragment} (hs : s = pre ++ raw ++ tail) :
    (if pre.length + raw.length > pre.length then pushLiteral fr (slice s pre.length (pre.length + raw.length)) else .ok fr) = .ok fr' ↔
      (raw = [] ∧ fr' = fr) ∨ (raw ≠ [] ∧ EvenRuns raw ∧ fr' = fr ++ pending raw) := by
  by_cases h0 : raw = []
  · subst h0; simp [eq_comm]
  · have hpos := List.length_pos_iff.mpr h0
    rw [if_pos (by omega), hs, slice_mid, pushLiteral_iff]
    simp [h0, pending]

/-- what the scan does with a string, or that it panics -/
theorem scan_stands (m : Mode) (s : List Char) : ∀ (k : Nat) (pre raw rest : List Char) (n : Nat) (fr : List Fragment) (r) (out),
    rest.length ≤ k → s = pre ++ raw ++ rest → paramTexts raw = [] →
    scanLoop m s rest false (pre.length + raw.length) pre.length n fr = .ok r → finish s r = .ok out →
    ∃ pieces fs, raw ++ rest = glue pieces ∧ Stands m n pieces fs ∧ out = fr ++ fs := by
  intro k
  induction k with
  | zero =>
    intro pre raw rest n fr r out hk hs hraw hsc hf
    have : rest = [] := List.length_eq_zero_iff.mp (by omega)
    subst this
    rw [scanLoop] at hsc
    injection hsc with hsc
    subst hsc
    unfold finish at hf
    simp only at hf
    subst hs
    by_cases h0 : raw = []
    · subst h0
      simp at hf
      exact ⟨[], [], rfl, .nil, by simp [hf]⟩
    · have : pre.length ≠ (pre ++ raw ++ []).length := by
        have := List.length_pos_iff.mpr h0
        simp only [List.length_append, List.length_nil]; omega
      rw [if_pos this] at hf
      have e : (pre ++ raw ++ []).drop pre.length = raw := by simp
      rw [e] at hf
      obtain ⟨h1, h2⟩ := pushLiteral_iff.mp hf
      exact ⟨[.text raw], _, by simp [glue], .text ⟨h0, hraw, h1, rfl⟩ (by simp) .nil, h2⟩
  | succ k ih =>
    intro pre raw rest n fr r out hk hs hraw hsc hf
    match rest, hk, hs, hsc with
    | [], _, hs, hsc => exact ih pre raw [] n fr r out (by simp) hs hraw hsc hf
    | c :: rest, hk, hs, hsc =>
      simp only [List.length_cons] at hk
      by_cases hc : c = '{'
      · subst hc
        by_cases hh : rest.head? = some '{'
        · obtain ⟨r', rfl⟩ : ∃ r', rest = '{' :: r' := by
            cases rest with
            | nil => cases hh
            | cons x xs => simp at hh; subst hh; exact ⟨xs, rfl⟩
          rw [show '{' :: '{' :: r' = c!"{{" ++ r' from rfl, scan_raw m s c!"{{" r' (by rfl)] at hsc
          obtain ⟨pieces, fs, h1, h2, h3⟩ := ih pre (raw ++ c!"{{") r' n fr r out (by simp at hk; omega) (by rw [hs]; simp)
            (by rw [paramTexts_raw _ _ hraw]; rfl)
            (by rw [← hsc]; congr 1; simp; try omega) hf
          exact ⟨pieces, fs, by rw [← h1]; simp, h2, h3⟩
        · obtain ⟨-, -, -, hm, -, -⟩ := scan_ok_step hh hsc
          have ht := split_param hm
          have hcl : '}' ∉ rest.takeWhile (· ≠ '}') := by
            intro h
            have := mem_takeWhile h
            simp at this
          generalize rest.takeWhile (· ≠ '}') = text at *
          generalize (rest.dropWhile (· ≠ '}')).tail = rest' at *
          subst ht
          have hh' : text.head? ≠ some '{' := by
            cases text with
            | nil => simp
            | cons x xs => simpa using hh
          rw [scan_param m s hh' hcl] at hsc
          cases hl : (if pre.length + raw.length > pre.length then pushLiteral fr (slice s pre.length (pre.length + raw.length)) else .ok fr) with
          | error e => rw [hl] at hsc; cases hsc
          | ok fr' =>
            rw [hl] at hsc
            simp only [andThen] at hsc
            have hl' := (lit_step hs).mp hl
            cases hr : readParams m (text :: paramTexts text) n fr' with
            | panic => rw [hr] at hsc; cases hsc
            | err e => rw [hr] at hsc; cases hsc
            | ok q =>
              obtain ⟨fr2, n2⟩ := q
              rw [hr] at hsc
              simp only at hsc
              obtain ⟨ps, rfl, hnum⟩ := (readParams_ok m _ _ _ _ _).mp hr
              have hlen : (pre ++ raw ++ '{' :: (text ++ ['}'])).length = pre.length + raw.length + 1 + text.length + 1 := by
                simp; omega
              obtain ⟨pieces, fs, h1, h2, h3⟩ := ih (pre ++ raw ++ '{' :: (text ++ ['}'])) [] rest' _ _ r out (by simp at hk; omega)
                (by rw [hs]; simp) rfl (by rw [← hsc, hlen]; rfl) hf
              rw [List.nil_append] at h1
              have hpar : Stands m n (.param text :: pieces) (ps ++ fs) := .param hh' hcl hnum h2
              rcases hl' with ⟨rfl, rfl⟩ | ⟨h0, g1, rfl⟩
              · exact ⟨_, _, by simp [glue, h1], hpar, by rw [h3]; simp⟩
              · exact ⟨.text raw :: .param text :: pieces, _, by simp [glue, h1], .text ⟨h0, hraw, g1, rfl⟩ (by simp) hpar,
                  by rw [h3]; simp [pending, h0]⟩
      · rw [show c :: rest = [c] ++ rest from rfl, scan_raw m s [c] rest (paramTexts_other hc [])] at hsc
        obtain ⟨pieces, fs, h1, h2, h3⟩ := ih pre (raw ++ [c]) rest n fr r out (by omega) (by rw [hs]; simp)
          (by rw [paramTexts_raw _ _ hraw]; exact paramTexts_other hc [])
          (by rw [← hsc]; congr 1; simp; try omega) hf
        exact ⟨pieces, fs, by rw [← h1]; simp, h2, h3⟩

theorem scan_panic_stands (m : Mode) (s : List Char) : ∀ (k : Nat) (pre raw rest : List Char) (n : Nat) (fr : List Fragment),
    rest.length ≤ k → s = pre ++ raw ++ rest → paramTexts raw = [] →
    scanLoop m s rest false (pre.length + raw.length) pre.length n fr = .panic →
    ∃ pieces fs text post a bad b, raw ++ rest = glue pieces ++ ('{' :: text ++ '}' :: post) ∧ Stands m n pieces fs ∧
      text.head? ≠ some '{' ∧ '}' ∉ text ∧
      text :: paramTexts text = a ++ bad :: b ∧ (∀ t ∈ a, ∃ p, ParamText m t p) ∧ Misread bad := by
  intro k
  induction k with
  | zero =>
    intro pre raw rest n fr hk hs hraw hsc
    have : rest = [] := List.length_eq_zero_iff.mp (by omega)
    subst this
    cases hsc
  | succ k ih =>
    intro pre raw rest n fr hk hs hraw hsc
    match rest, hk, hs, hsc with
    | [], _, hs, hsc => exact ih pre raw [] n fr (by simp) hs hraw hsc
    | c :: rest, hk, hs, hsc =>
      simp only [List.length_cons] at hk
      by_cases hc : c = '{'
      · subst hc
        by_cases hh : rest.head? = some '{'
        · obtain ⟨r', rfl⟩ : ∃ r', rest = '{' :: r' := by
            cases rest with
            | nil => cases hh
            | cons x xs => simp at hh; subst hh; exact ⟨xs, rfl⟩
          rw [show '{' :: '{' :: r' = c!"{{" ++ r' from rfl, scan_raw m s c!"{{" r' (by rfl)] at hsc
          obtain ⟨pieces, fs, text, post, a, bad, b, h1, h2⟩ := ih pre (raw ++ c!"{{") r' n fr (by simp at hk; omega) (by rw [hs]; simp)
            (by rw [paramTexts_raw _ _ hraw]; rfl)
            (by rw [← hsc]; congr 1; simp; try omega)
          exact ⟨pieces, fs, text, post, a, bad, b, by rw [← h1]; simp, h2⟩
        · obtain ⟨-, -, hm, -⟩ := scan_panic_step hh hsc
          have ht := split_param hm
          have hcl : '}' ∉ rest.takeWhile (· ≠ '}') := by
            intro h
            have := mem_takeWhile h
            simp at this
          generalize rest.takeWhile (· ≠ '}') = text at *
          generalize (rest.dropWhile (· ≠ '}')).tail = rest' at *
          subst ht
          have hh' : text.head? ≠ some '{' := by
            cases text with
            | nil => simp
            | cons x xs => simpa using hh
          rw [scan_param m s hh' hcl] at hsc
          cases hl : (if pre.length + raw.length > pre.length then pushLiteral fr (slice s pre.length (pre.length + raw.length)) else .ok fr) with
          | error e => rw [hl] at hsc; cases hsc
          | ok fr' =>
            rw [hl] at hsc
            simp only [andThen] at hsc
            have hl' := (lit_step hs).mp hl
            cases hr : readParams m (text :: paramTexts text) n fr' with
            | panic =>
              obtain ⟨a, bad, b, e1, e2, e3⟩ := (readParams_panic m _ _ _).mp hr
              rcases hl' with ⟨rfl, rfl⟩ | ⟨h0, g1, rfl⟩
              · exact ⟨[], [], text, rest', a, bad, b, rfl, .nil, hh', hcl, e1, e2, e3⟩
              · exact ⟨[.text raw], _, text, rest', a, bad, b, by simp [glue], .text ⟨h0, hraw, g1, rfl⟩ (by simp) .nil, hh', hcl, e1, e2, e3⟩
            | err e => rw [hr] at hsc; cases hsc
            | ok q =>
              obtain ⟨fr2, n2⟩ := q
              rw [hr] at hsc
              simp only at hsc
              obtain ⟨ps, rfl, hnum⟩ := (readParams_ok m _ _ _ _ _).mp hr
              have hlen : (pre ++ raw ++ '{' :: (text ++ ['}'])).length = pre.length + raw.length + 1 + text.length + 1 := by
                simp; omega
              obtain ⟨pieces, fs, text2, post, a, bad, b, h1, h2, h3⟩ := ih (pre ++ raw ++ '{' :: (text ++ ['}'])) [] rest' _ _ (by simp at hk; omega)
                (by rw [hs]; simp) rfl (by rw [← hsc, hlen]; rfl)
              rw [List.nil_append] at h1
              have hpar : Stands m n (.param text :: pieces) (ps ++ fs) := .param hh' hcl hnum h2
              rcases hl' with ⟨rfl, rfl⟩ | ⟨h0, g1, rfl⟩
              · exact ⟨_, _, text2, post, a, bad, b, by simp [glue, h1], hpar, h3⟩
              · exact ⟨.text raw :: .param text :: pieces, _, text2, post, a, bad, b, by simp [glue, h1], .text ⟨h0, hraw, g1, rfl⟩ (by simp) hpar, h3⟩
      · rw [show c :: rest = [c] ++ rest from rfl, scan_raw m s [c] rest (paramTexts_other hc [])] at hsc
        obtain ⟨pieces, fs, text, post, a, bad, b, h1, h2⟩ := ih pre (raw ++ [c]) rest n fr (by omega) (by rw [hs]; simp)
          (by rw [paramTexts_raw _ _ hraw]; exact paramTexts_other hc [])
          (by rw [← hsc]; congr 1; simp; try omega)
        exact ⟨pieces, fs, text, post, a, bad, b, by rw [← h1]; simp, h2⟩

/-- the scan over correct pieces, whatever follows -/
theorem stands_scan (m : Mode) (s tail : List Char) {n : Nat} {pieces : List Piece} {fs : List Fragment} (h : Stands m n pieces fs) :
    ∀ (pre raw : List Char) (fr : List Fragment), s = pre ++ raw ++ (glue pieces ++ tail) → paramTexts raw = [] → EvenRuns raw →
    (raw ≠ [] → ∀ raw' r', pieces ≠ .text raw' :: r') →
    ∃ pre' raw' fr' n', s = pre' ++ raw' ++ tail ∧ EvenRuns raw' ∧
      scanLoop m s (glue pieces ++ tail) false (pre.length + raw.length) pre.length n fr =
        scanLoop m s tail false (pre'.length + raw'.length) pre'.length n' fr' ∧
      fr' ++ pending raw' = fr ++ pending raw ++ fs := by
  induction h with
  | nil =>
    intro pre raw fr hs hraw he _
    exact ⟨pre, raw, fr, _, hs, he, rfl, by simp⟩
  | @text next raw' t r fs hw hadj hm ih =>
    intro pre raw fr hs hraw he hne
    have h0 : raw = [] := Classical.byContradiction fun h0 => hne h0 _ _ rfl
    subst h0
    obtain ⟨w1, w2, w3, w4⟩ := hw
    obtain ⟨p', r', f', n', h1, h2, h3, h4⟩ := ih pre raw' fr (by rw [hs]; simp [glue]) w2 w3 (fun _ => hadj)
    refine ⟨p', r', f', n', h1, h2, ?_, ?_⟩
    · rw [glue, List.append_assoc, scan_raw m s raw' _ w2]
      simpa using h3
    · rw [h4, w4]; simp [pending, w1]
  | @param next last text r ps fs hh hcl hnum hm ih =>
    intro pre raw fr hs hraw he hne
    have hlen : (pre ++ raw ++ '{' :: (text ++ ['}'])).length = pre.length + raw.length + 1 + text.length + 1 := by
      simp; omega
    obtain ⟨p', r', f', n', h1, h2, h3, h4⟩ := ih (pre ++ raw ++ '{' :: (text ++ ['}'])) [] (fr ++ pending raw ++ ps) (by rw [hs]; simp [glue]) rfl
      evenRuns_nil (by simp)
    refine ⟨p', r', f', n', h1, h2, ?_, ?_⟩
    · have e : glue (.param text :: r) ++ tail = '{' :: (text ++ '}' :: (glue r ++ tail)) := by simp [glue]
      rw [e, scan_param m s hh hcl]
      have hlit := (lit_step (fr := fr) (fr' := fr ++ pending raw) hs).mpr (by
        by_cases h0 : raw = []
        · left; subst h0; simp [pending]
        · exact Or.inr ⟨h0, he, rfl⟩)
      rw [hlit]
      simp only [(readParams_ok m _ _ (fr ++ pending raw) _ _).mpr ⟨ps, rfl, hnum⟩, andThen]
      rw [← h3, hlen]; rfl
    · rw [h4]; simp [pending]

theorem stands_finish (m : Mode) (s : List Char) {n : Nat} {pieces : List Piece} {fs : List Fragment} (h : Stands m n pieces fs)
    (hs : s = glue pieces) :
    ∃ r, scanLoop m s s false 0 0 n [] = .ok r ∧ finish s r = .ok fs := by
  obtain ⟨pre', raw', fr', n', h1, h2, h3, h4⟩ := stands_scan m s [] h [] [] [] (by simpa using hs) rfl evenRuns_nil (by simp)
  simp only [List.append_nil, ← hs, List.length_nil, Nat.add_zero] at h1 h3
  rw [show scanLoop m s [] false (pre'.length + raw'.length) pre'.length n' fr' = .ok (fr', pre'.length) by rw [scanLoop]] at h3
  refine ⟨_, h3, ?_⟩
  unfold finish
  simp only
  have h4' : fr' ++ pending raw' = fs := by simpa [pending] using h4
  by_cases h0 : raw' = []
  · subst h0
    simp [pending] at h4'
    rw [h1]; simp [h4']
  · have hpos := List.length_pos_iff.mpr h0
    rw [if_pos (by rw [h1]; simp only [List.length_append]; omega)]
    have e : s.drop pre'.length = raw' := by rw [h1]; simp
    rw [e, ← h4']
    exact pushLiteral_iff.mpr ⟨h2, by simp [pending, h0]⟩

theorem stands_panic (m : Mode) (s : List Char) {n : Nat} {pieces : List Piece} {fs : List Fragment} (h : Stands m n pieces fs)
    {text post : List Char} {a b : List (List Char)} {bad : List Char}
    (hs : s = glue pieces ++ ('{' :: text ++ '}' :: post)) (hh : text.head? ≠ some '{') (hcl : '}' ∉ text)
    (hl : text :: paramTexts text = a ++ bad :: b) (ha : ∀ t ∈ a, ∃ p, ParamText m t p) (hb : Misread bad) :
    scanLoop m s s false 0 0 n [] = .panic := by
  obtain ⟨pre', raw', fr', n', h1, h2, h3, h4⟩ := stands_scan m s _ h [] [] [] (by simpa using hs) rfl evenRuns_nil (by simp)
  rw [← List.cons_append, ← hs] at h3
  simp only [List.length_nil, Nat.add_zero] at h3
  rw [h3, List.cons_append, scan_param m s hh hcl]
  have hlit := (lit_step (fr := fr') (fr' := fr' ++ pending raw') h1).mpr (by
    by_cases h0 : raw' = []
    · left; subst h0; simp [pending]
    · exact Or.inr ⟨h0, h2, rfl⟩)
  rw [hlit]
  simp only [(readParams_panic m _ _ _).mpr ⟨a, bad, b, hl, ha, hb⟩, andThen]

theorem paramTexts_none {text : List Char} (h : '{' ∉ text) : paramTexts text = [] := by
  have := paramTexts_inner text [] h
  simpa [paramTexts] using this

/-- `Means` is the special case of parameters without `{` -/
theorem Means.stands {m : Mode} {n : Nat} {pieces : List Piece} {fs : List Fragment} (h : Means m n pieces fs) : Stands m n pieces fs := by
  induction h with
  | nil => exact .nil
  | text hw hadj _ ih => exact .text hw hadj ih
  | @explicit next text i ty hint r fs hop hcl hp _ ih =>
    have hh : text.head? ≠ some '{' := fun e => hop (List.mem_of_head? e)
    exact .param (ps := [.param ⟨i, ty, hint⟩]) hh hcl (by rw [paramTexts_none hop]; exact .explicit hp .nil) ih
  | @implicit next text ty hint r fs hop hcl hp _ ih =>
    have hh : text.head? ≠ some '{' := fun e => hop (List.mem_of_head? e)
    exact .param (ps := [.param ⟨next, ty, hint⟩]) hh hcl (by rw [paramTexts_none hop]; exact .implicit hp .nil) ih

end Defmt.Parser
