import Verif.Spec.ParserPanic
import Verif.Lemmas.Grammar
/-! When the parser panics. -/

namespace Defmt.Parser

theorem utf8Size_pos' (c : Char) : 1 ≤ c.utf8Size := Char.utf8Size_pos c

theorem firstTwoBytes_none {s : List Char} : firstTwoBytes s = none ↔ NoTwoBytes s := by
  constructor
  · intro h a b e hs
    match a, e, hs with
    | [], _, hs => simp at hs
    | [c], e, hs =>
      simp at hs
      subst e
      simp [firstTwoBytes, hs] at h
    | [c, d], e, hs =>
      simp at hs
      have := utf8Size_pos' c
      have := utf8Size_pos' d
      have e1 : c.utf8Size = 1 := by omega
      have e2 : d.utf8Size = 1 := by omega
      subst e
      simp [firstTwoBytes, e1, e2] at h
    | c :: d :: f :: r, e, hs =>
      have := utf8Size_pos' c
      have := utf8Size_pos' d
      have := utf8Size_pos' f
      simp at hs
      omega
  · intro h
    match s with
    | [] => rfl
    | [c] =>
      have := h [c] [] rfl
      simp at this
      simp [firstTwoBytes, this]
    | c :: d :: r =>
      have h1 := h [c] (d :: r) rfl
      have h2 := h [c, d] r rfl
      simp at h1 h2
      simp only [firstTwoBytes, h1, if_false]
      split
      · rename_i hc
        rw [if_neg (by omega)]
      · rfl

theorem parseDigits_some {max n : Nat} {t : List Char} :
    parseDigits max (t.takeWhile isDigit) = some n ↔ explicitIndex t = some n ∧ n < max := by
  unfold parseDigits explicitIndex
  rw [isDigit_eq']
  simp only
  by_cases h : t.takeWhile Char.isDigit = []
  · simp [h]
  · simp only [h, if_false, digitsValue_eq]
    split
    · rename_i h2
      constructor
      · intro e; cases e; exact ⟨rfl, h2⟩
      · rintro ⟨e, -⟩; exact e
    · rename_i h2
      constructor
      · intro e; cases e
      · rintro ⟨e, h3⟩; cases e; exact absurd h3 h2

theorem parseRange_panic_iff {ty : List Char} :
    parseRange ty = .panic ↔ ∃ n, explicitIndex ty = some n ∧ n < 256 ∧ NoTwoBytes (ty.dropWhile Char.isDigit) := by
  unfold parseRange
  simp only
  cases hd : parseDigits 256 (ty.takeWhile isDigit) with
  | none =>
    simp only [reduceCtorEq, false_iff]
    rintro ⟨n, h1, h2, -⟩
    rw [parseDigits_some.mpr ⟨h1, h2⟩] at hd
    cases hd
  | some n =>
    obtain ⟨h1, h2⟩ := parseDigits_some.mp hd
    rw [← isDigit_eq']
    cases hf : firstTwoBytes (ty.dropWhile isDigit) with
    | none => simp only [true_iff]; exact ⟨n, h1, h2, firstTwoBytes_none.mp hf⟩
    | some two =>
      constructor
      · intro h
        simp only at h
        repeat' split at h
        all_goals cases h
      · rintro ⟨_, _, _, h3⟩
        rw [firstTwoBytes_none.mpr h3] at hf
        cases hf

theorem parseType_panic_iff {input ty : List Char} :
    parseType input ty = .panic ↔ ∃ n, explicitIndex ty = some n ∧ n < 256 ∧ NoTwoBytes (ty.dropWhile Char.isDigit) := by
  rw [← parseRange_panic_iff]
  constructor
  · intro h
    unfold parseType at h
    repeat' split at h
    all_goals first | assumption | cases h
  · intro h
    have h' := h
    rw [parseRange_panic_iff] at h'
    obtain ⟨n, h1, -⟩ := h'
    cases ty with
    | nil => simp [explicitIndex] at h1
    | cons d ds =>
      have hd : isDigit d = true := by
        cases hd : isDigit d with
        | true => rfl
        | false =>
          rw [isDigit_eq] at hd
          simp [explicitIndex, List.takeWhile, hd] at h1
      unfold parseType
      rw [typeFromStr_digit d ds hd]
      have s1 : stripPrefix c!"[u8;" (d :: ds) = none := by
        unfold stripPrefix
        rw [if_neg (fun e => by subst e; exact absurd hd (by decide))]
      have s2 : stripPrefix c!"[?;" (d :: ds) = none := by
        unfold stripPrefix
        rw [if_neg (fun e => by subst e; exact absurd hd (by decide))]
      rw [s1, s2, h]

theorem parseTypeHint_panic_iff {m : Mode} {ix : Option Nat} {t : List Char} :
    parseTypeHint m ix (t.dropWhile isDigit) = .panic ↔
      ∃ ty n, typeText t = some ty ∧ explicitIndex ty = some n ∧ n < 256 ∧ NoTwoBytes (ty.dropWhile Char.isDigit) := by
  unfold parseTypeHint typeText
  rw [isDigit_eq']
  cases hd : t.dropWhile Char.isDigit with
  | nil =>
    simp only [stripPrefix]
    constructor
    · intro h; split at h <;> cases h
    · rintro ⟨_, _, h, -⟩; cases h
  | cons c r =>
    by_cases hc : c = '='
    · subst hc
      have : stripPrefix c!"=" ('=' :: r) = some r := by simp [stripPrefix]
      rw [this]
      simp only
      constructor
      · intro h
        split at h
        · rename_i hp
          obtain ⟨n, hn⟩ := parseType_panic_iff.mp hp
          exact ⟨_, n, rfl, hn⟩
        · cases h
        · split at h <;> cases h
      · rintro ⟨ty, n, e, hn⟩
        cases e
        rw [parseType_panic_iff.mpr ⟨n, hn⟩]
    · have : stripPrefix c!"=" (c :: r) = none := by simp [stripPrefix]; exact fun e => hc e.symm
      rw [this]
      simp only
      constructor
      · intro h; split at h <;> cases h
      · rintro ⟨_, _, h, -⟩
        split at h
        · rename_i e; simp at e; exact absurd e.1 hc
        · cases h

theorem parseParam_panic_iff {m : Mode} {t : List Char} : parseParam m t = .panic ↔ Misread t := by
  unfold parseParam Misread
  simp only
  split
  · rename_i h0
    rw [parseTypeHint_panic_iff]
    constructor
    · intro h
      refine ⟨fun i hi => ?_, h⟩
      rw [isDigit_eq'] at h0
      simp [explicitIndex, h0] at hi
    · exact fun h => h.2
  · cases hd : parseDigits (2 ^ 64) (t.takeWhile isDigit) with
    | none =>
      rename_i h0
      simp only [reduceCtorEq, false_iff]
      rintro ⟨h1, -⟩
      rw [isDigit_eq'] at h0
      have hx : explicitIndex t = some (Nat.ofDigitChars 10 (t.takeWhile Char.isDigit) 0) := by simp [explicitIndex, h0]
      rw [parseDigits_some.mpr ⟨hx, h1 _ hx⟩] at hd
      cases hd
    | some i =>
      obtain ⟨h1, h2⟩ := parseDigits_some.mp hd
      simp only
      rw [parseTypeHint_panic_iff]
      constructor
      · intro h
        refine ⟨fun j hj => ?_, h⟩
        rw [h1] at hj; cases hj; exact h2
      · exact fun h => h.2

theorem Misread.head {t : List Char} (h : Misread t) (r : List Char) : (t ++ r).head? ≠ some '{' := by
  obtain ⟨-, ty, n, h1, -⟩ := h
  cases t with
  | nil => simp [typeText] at h1
  | cons c cs =>
    simp only [List.cons_append, List.head?_cons, ne_eq, Option.some.injEq]
    rintro rfl
    simp [typeText, List.dropWhile] at h1

/-- a step of the scan that panics -/
theorem scan_panic_step {m : Mode} {s rest : List Char} {pos e n : Nat} {fr : List Fragment} (hh : rest.head? ≠ some '{')
    (h : scanLoop m s ('{' :: rest) false pos e n fr = .panic) :
    ∃ fr', (if pos > e then pushLiteral fr (slice s e pos) else .ok fr) = .ok fr' ∧ '}' ∈ rest ∧
      (parseParam m (rest.takeWhile (· ≠ '}')) = .panic ∨
       ∃ p, parseParam m (rest.takeWhile (· ≠ '}')) = .ok p ∧
        scanLoop m s rest false (pos + 1) (pos + 1 + (rest.takeWhile (· ≠ '}')).length + 1)
          (match p.index with | some _ => n | none => n + 1)
          (fr' ++ [.param { index := (match p.index with | some i => i | none => n), ty := p.ty, hint := p.hint }]) = .panic) := by
  rw [scanLoop] at h
  simp only [Bool.false_eq_true, if_false, ne_eq, not_true, hh] at h
  cases hl : (if pos > e then pushLiteral fr (slice s e pos) else .ok fr) with
  | error e => rw [hl] at h; cases h
  | ok fr' =>
    rw [hl] at h
    simp only at h
    refine ⟨fr', rfl, ?_⟩
    by_cases hm : '}' ∈ rest
    · refine ⟨hm, ?_⟩
      rw [if_neg (by simpa using hm)] at h
      cases hp : parseParam m (rest.takeWhile (· ≠ '}')) with
      | panic => exact Or.inl rfl
      | err e => simp only [ne_eq] at hp; rw [hp] at h; cases h
      | ok p =>
        refine Or.inr ⟨p, rfl, ?_⟩
        simp only [ne_eq] at hp
        rw [hp] at h
        simp only at h
        cases hi : p.index <;> · rw [hi] at h; simp only at h; simpa using h
    · rw [if_pos hm] at h
      cases h

theorem scan_panic_means (m : Mode) (s : List Char) : ∀ (k : Nat) (pre raw rest : List Char) (n : Nat) (fr : List Fragment),
    rest.length ≤ k → s = pre ++ raw ++ rest → paramTexts raw = [] → (∀ text ∈ paramTexts rest, '{' ∉ text) →
    scanLoop m s rest false (pre.length + raw.length) pre.length n fr = .panic →
    ∃ pieces fs text post, raw ++ rest = glue pieces ++ ('{' :: text ++ '}' :: post) ∧ Means m n pieces fs ∧ '}' ∉ text ∧ Misread text := by
  intro k
  induction k with
  | zero =>
    intro pre raw rest n fr hk hs hraw hno hsc
    have : rest = [] := List.length_eq_zero_iff.mp (by omega)
    subst this
    cases hsc
  | succ k ih =>
    intro pre raw rest n fr hk hs hraw hno hsc
    match rest, hk, hs, hno, hsc with
    | [], _, hs, hno, hsc => exact ih pre raw [] n fr (by simp) hs hraw hno hsc
    | c :: rest, hk, hs, hno, hsc =>
      simp only [List.length_cons] at hk
      by_cases hc : c = '{'
      · subst hc
        by_cases hh : rest.head? = some '{'
        · obtain ⟨r', rfl⟩ : ∃ r', rest = '{' :: r' := by
            cases rest with
            | nil => cases hh
            | cons x xs => simp at hh; subst hh; exact ⟨xs, rfl⟩
          rw [show '{' :: '{' :: r' = c!"{{" ++ r' from rfl, scan_raw m s c!"{{" r' (by rfl)] at hsc
          obtain ⟨pieces, fs, text, post, h1, h2, h3⟩ := ih pre (raw ++ c!"{{") r' n fr (by simp at hk; omega) (by rw [hs]; simp)
            (by rw [paramTexts_raw _ _ hraw]; rfl) (by rw [paramTexts_esc] at hno; exact hno)
            (by rw [← hsc]; congr 1; simp; try omega)
          exact ⟨pieces, fs, text, post, by rw [← h1]; simp, h2, h3⟩
        · obtain ⟨fr', hl, hm, hcase⟩ := scan_panic_step hh hsc
          have ht := split_param hm
          have hcl : '}' ∉ rest.takeWhile (· ≠ '}') := by
            intro h
            have := mem_takeWhile h
            simp at this
          rw [paramTexts_open hh] at hno
          generalize rest.takeWhile (· ≠ '}') = text at *
          generalize (rest.dropWhile (· ≠ '}')).tail = rest' at *
          subst ht
          have hop := hno text (by simp)
          have hraw' : raw = [] ∨ (raw ≠ [] ∧ EvenRuns raw) := by
            by_cases h0 : raw = []
            · exact Or.inl h0
            · have hpos := List.length_pos_iff.mpr h0
              rw [if_pos (by omega), hs, slice_mid] at hl
              exact Or.inr ⟨h0, (pushLiteral_iff.mp hl).1⟩
          rcases hcase with hp | ⟨p, hp, hsc⟩
          · have hmis := parseParam_panic_iff.mp hp
            rcases hraw' with rfl | ⟨h0, g1⟩
            · exact ⟨[], [], text, rest', rfl, .nil, hcl, hmis⟩
            · exact ⟨[.text raw], _, text, rest', by simp [glue], .text ⟨h0, hraw, g1, rfl⟩ (by simp) .nil, hcl, hmis⟩
          · rw [show text ++ '}' :: rest' = (text ++ ['}']) ++ rest' by simp,
              scan_inner m s _ rest' (by simp [hop])] at hsc
            have hlen : (pre ++ raw ++ '{' :: (text ++ ['}'])).length = pre.length + raw.length + 1 + text.length + 1 := by
              simp; omega
            have hsc' : scanLoop m s rest' false ((pre ++ raw ++ '{' :: (text ++ ['}'])).length + ([] : List Char).length)
                (pre ++ raw ++ '{' :: (text ++ ['}'])).length (match p.index with | some _ => n | none => n + 1)
                (fr' ++ [.param { index := (match p.index with | some i => i | none => n), ty := p.ty, hint := p.hint }]) = .panic := by
              rw [← hsc, hlen]
              congr 1
              simp; omega
            obtain ⟨pieces, fs, text2, post, h1, h2, h3⟩ := ih _ [] rest' _ _ (by simp at hk; omega) (by rw [hs]; simp) rfl
              (by
                intro t htt
                refine hno t (List.mem_cons_of_mem _ ?_)
                rw [paramTexts_inner _ _ hop, paramTexts_other (by decide)]
                exact htt) hsc'
            rw [List.nil_append] at h1
            have hpar : Means m n (.param text :: pieces)
                (.param { index := (match p.index with | some i => i | none => n), ty := p.ty, hint := p.hint } :: fs) := by
              have hpt := parseParam_iff.mp hp
              obtain ⟨index, ty, hint⟩ := p
              cases index with
              | none => exact .implicit hop hcl hpt h2
              | some i => exact .explicit hop hcl hpt h2
            rcases hraw' with rfl | ⟨h0, g1⟩
            · exact ⟨_, _, text2, post, by simp [glue, h1], hpar, h3⟩
            · exact ⟨.text raw :: .param text :: pieces, _, text2, post, by simp [glue, h1], .text ⟨h0, hraw, g1, rfl⟩ (by simp) hpar, h3⟩
      · rw [show c :: rest = [c] ++ rest from rfl, scan_raw m s [c] rest (paramTexts_other hc [])] at hsc
        obtain ⟨pieces, fs, text, post, h1, h2, h3⟩ := ih pre (raw ++ [c]) rest n fr (by omega) (by rw [hs]; simp)
          (by rw [paramTexts_raw _ _ hraw]; exact paramTexts_other hc []) (by rw [paramTexts_other hc] at hno; exact hno)
          (by rw [← hsc]; congr 1; simp; try omega)
        exact ⟨pieces, fs, text, post, by rw [← h1]; simp, h2, h3⟩

theorem evenRuns_nil : EvenRuns [] := by
  intro a b e _
  have := List.append_eq_nil_iff.mp e.symm
  simp [this.2, braces]

theorem means_scan_panic (m : Mode) (s text post : List Char) (hcl : '}' ∉ text) (hm : Misread text) {n : Nat} {pieces : List Piece} {fs : List Fragment}
    (h : Means m n pieces fs) :
    ∀ (pre raw : List Char) (fr : List Fragment), s = pre ++ raw ++ (glue pieces ++ ('{' :: text ++ '}' :: post)) → paramTexts raw = [] → EvenRuns raw →
    (raw ≠ [] → ∀ raw' r', pieces ≠ .text raw' :: r') →
    scanLoop m s (glue pieces ++ ('{' :: text ++ '}' :: post)) false (pre.length + raw.length) pre.length n fr = .panic := by
  induction h with
  | nil =>
    intro pre raw fr hs hraw he _
    have hlit : (if pre.length + raw.length > pre.length then pushLiteral fr (slice s pre.length (pre.length + raw.length)) else .ok fr) =
        .ok (fr ++ pending raw) := by
      by_cases h0 : raw = []
      · subst h0; simp [pending]
      · have hpos := List.length_pos_iff.mpr h0
        rw [if_pos (by omega), hs, slice_mid]
        exact pushLiteral_iff.mpr ⟨he, by simp [pending, h0]⟩
    have htw : (text ++ '}' :: post).takeWhile (· ≠ '}') = text := by
      apply takeWhile_app
      · intro x hx
        simp only [ne_eq, decide_eq_true_eq]
        rintro rfl
        exact hcl hx
      · simp
    have hh := hm.head ('}' :: post)
    show scanLoop m s ('{' :: (text ++ '}' :: post)) _ _ _ _ _ = _
    rw [scanLoop]
    simp only [Bool.false_eq_true, if_false, ne_eq, not_true, hh, hlit]
    rw [if_neg (by simp)]
    simp only [ne_eq] at htw
    rw [htw, parseParam_panic_iff.mpr hm]
  | @text next raw' t r fs hw hadj hm' ih =>
    intro pre raw fr hs hraw he hne
    have h0 : raw = [] := Classical.byContradiction fun h0 => hne h0 _ _ rfl
    subst h0
    obtain ⟨w1, w2, w3, w4⟩ := hw
    have h1 := ih pre raw' fr (by rw [hs]; simp [glue]) w2 w3 (fun _ => hadj)
    rw [glue, List.append_assoc, scan_raw m s raw' _ w2]
    simpa using h1
  | @explicit next text' i ty hint r fs hop hcl' hp hm' ih =>
    intro pre raw fr hs hraw he hne
    have h1 := ih (pre ++ raw ++ '{' :: (text' ++ ['}'])) [] (fr ++ pending raw ++ [.param ⟨i, ty, hint⟩]) (by rw [hs]; simp [glue]) rfl evenRuns_nil (by simp)
    have e : glue (.param text' :: r) ++ ('{' :: text ++ '}' :: post) = '{' :: text' ++ '}' :: (glue r ++ ('{' :: text ++ '}' :: post)) := by simp [glue]
    rw [e, means_scan_param m s (by rw [hs, e]) he hop hcl' hp]
    exact h1
  | @implicit next text' ty hint r fs hop hcl' hp hm' ih =>
    intro pre raw fr hs hraw he hne
    have h1 := ih (pre ++ raw ++ '{' :: (text' ++ ['}'])) [] (fr ++ pending raw ++ [.param ⟨next, ty, hint⟩]) (by rw [hs]; simp [glue]) rfl evenRuns_nil (by simp)
    have e : glue (.param text' :: r) ++ ('{' :: text ++ '}' :: post) = '{' :: text' ++ '}' :: (glue r ++ ('{' :: text ++ '}' :: post)) := by simp [glue]
    rw [e, means_scan_param m s (by rw [hs, e]) he hop hcl' hp]
    exact h1

theorem checkArgs_panic_iff (fs : List Fragment) : ∀ {args : List (Option Ty)} {ps : List Parameter},
    AInv args ps → Consistent ps → (∀ p ∈ ps, p.index < maxArgs) →
    (checkArgs args fs = .panic ↔ ∃ a p b, params fs = a ++ p :: b ∧ maxArgs ≤ p.index ∧ Consistent (ps ++ a)) := by
  induction fs with
  | nil =>
    intro args ps _ _ _
    simp only [checkArgs, reduceCtorEq, params, false_iff]
    rintro ⟨a, p, b, h, -⟩
    cases a <;> cases h
  | cons f fs ih =>
    intro args ps h hcon hlt
    cases f with
    | literal t => exact ih h hcon hlt
    | param p =>
      have hlen : args.length ≤ maxArgs := by
        rcases h.last with rfl | ⟨q, hq, hl⟩
        · simp
        · have := hlt q hq; omega
      have hstep : ∀ args', checkArg args p = .ok args' → p.index < maxArgs → Consistent (ps ++ [p]) →
          (checkArgs args (.param p :: fs) = .panic ↔
            ∃ a q b, params (.param p :: fs) = a ++ q :: b ∧ maxArgs ≤ q.index ∧ Consistent (ps ++ a)) := by
        intro args' h1 hp hc
        have hi := checkArg_inv h h1
        rw [checkArgs, h1]
        simp only
        rw [ih hi hc (by
          intro q hq
          rcases List.mem_append.mp hq with hq | hq
          · exact hlt q hq
          · simp at hq; subst hq; exact hp)]
        constructor
        · rintro ⟨a, q, b, e1, e2, e3⟩
          exact ⟨p :: a, q, b, by simp [params, e1], e2, by simpa using e3⟩
        · rintro ⟨a, q, b, e1, e2, e3⟩
          cases a with
          | nil => simp [params] at e1; obtain ⟨rfl, -⟩ := e1; omega
          | cons x a =>
            simp [params] at e1
            obtain ⟨rfl, e1⟩ := e1
            exact ⟨a, q, b, e1, e2, by simpa using e3⟩
      rcases checkArg_cases args p with ⟨_, h0, h1⟩ | ⟨hb, hcase⟩
      · rw [checkArgs, h1]
        simp only [true_iff]
        exact ⟨[], p, params fs, rfl, by omega, by simpa using hcon⟩
      · have hp : p.index < maxArgs := by
          by_cases hle : args.length ≤ p.index
          · have := fun h => hb ⟨hle, h⟩; omega
          · omega
        rcases hcase with ⟨hg, h1⟩ | ⟨t, hg, hk, h1⟩ | ⟨t, hg, hk, h1⟩
        · refine hstep _ h1 hp ?_
          have hi := checkArg_inv h h1
          intro q hq r hr e
          obtain ⟨t1, g1, k1⟩ := hi.typed q hq
          obtain ⟨t2, g2, k2⟩ := hi.typed r hr
          rw [e, g2] at g1
          cases g1
          exact k1.symm.trans k2
        · refine hstep _ h1 hp ?_
          have hi := checkArg_inv h h1
          intro q hq r hr e
          obtain ⟨t1, g1, k1⟩ := hi.typed q hq
          obtain ⟨t2, g2, k2⟩ := hi.typed r hr
          rw [e, g2] at g1
          cases g1
          exact k1.symm.trans k2
        · rw [checkArgs, h1]
          simp only [reduceCtorEq, false_iff]
          rintro ⟨a, q, b, e1, e2, e3⟩
          cases a with
          | nil => simp [params] at e1; obtain ⟨rfl, -⟩ := e1; omega
          | cons x a =>
            simp [params] at e1
            obtain ⟨rfl, e1⟩ := e1
            rw [grown_get] at hg
            obtain ⟨r, hr, g2, g3⟩ := h.used _ _ hg
            exact hk (g3 ▸ e3 r (by simp [hr]) p (by simp) g2)

end Defmt.Parser
