import Verif.Spec.Attributes
/-!
# Lemmas about the attribute macros
-/

namespace Defmt.Attributes

open Parser

theorem commas_eq_nil {l : List Toks} (h : ∀ x ∈ l, x ≠ []) : commas l = [] ↔ l = [] := by
  match l with
  | [] => simp [commas]
  | [x] => simpa [commas] using h
  | x :: y :: rest => simp [commas]

theorem tail_exact {O W : Toks} (hO : O = [] ∨ ∃ ty, O = c!"->" :: ty) (hW : W = [] ∨ ∃ r, W = c!"where" :: r)
    (h : O ++ W = [c!"->", c!"!"]) : O = [c!"->", c!"!"] ∧ W = [] := by
  rcases hO with rfl | ⟨ty, rfl⟩ <;> rcases hW with rfl | ⟨r, rfl⟩ <;> simp_all
  rcases ty with _ | ⟨a, _ | ⟨b, ty⟩⟩ <;> simp_all

theorem inputs_exact {I O W : Toks} (hO : O = [] ∨ ∃ ty, O = c!"->" :: ty) (hW : W = [] ∨ ∃ r, W = c!"where" :: r)
    (h : I ++ (c!")" :: (O ++ W)) = [c!")", c!"->", c!"!"]) : I = [] ∧ O = [c!"->", c!"!"] ∧ W = [] := by
  rcases I with _ | ⟨a, _ | ⟨b, _ | ⟨c, I⟩⟩⟩
  · simp at h
    exact ⟨rfl, tail_exact hO hW h⟩
  · simp at h
  · simp at h
  · simp at h

theorem angles_exact {P I O W : Toks} (hO : O = [] ∨ ∃ ty, O = c!"->" :: ty) (hW : W = [] ∨ ∃ r, W = c!"where" :: r)
    (h : P ++ (c!">" :: c!"(" :: (I ++ (c!")" :: (O ++ W)))) = [c!">", c!"(", c!")", c!"->", c!"!"]) :
    P = [] ∧ I = [] ∧ O = [c!"->", c!"!"] ∧ W = [] := by
  rcases P with _ | ⟨a, _ | ⟨b, _ | ⟨c, P⟩⟩⟩
  · simp at h
    exact ⟨rfl, inputs_exact hO hW h⟩
  · simp at h
  · simp at h
  · have := congrArg List.length h
    simp at this
    omega

theorem sig_exact {s : Sig} (h : s.Proper) :
    (s.constness = false ∧ s.asyncness = false ∧ s.unsafety = false ∧ s.abi = none ∧ s.generics.params = [] ∧
      s.generics.whereClause = none ∧ s.variadic = false ∧ s.inputs = [] ∧ s.output = .never) ↔
    (s.text = [c!"fn", s.ident, c!"(", c!")", c!"->", c!"!"] ∨
      s.text = [c!"fn", s.ident, c!"<", c!">", c!"(", c!")", c!"->", c!"!"]) := by
  obtain ⟨constness, asyncness, unsafety, abi, ident, ⟨angles, params, wh⟩, inputs, variadic, output⟩ := s
  obtain ⟨⟨ha, hp⟩, hi, ho⟩ := h
  simp only at ha hp hi ho
  have hcp := commas_eq_nil hp
  have hci := commas_eq_nil hi
  constructor
  · rintro ⟨rfl, rfl, rfl, rfl, h1, h2, rfl, h3, rfl⟩
    simp only at h1 h2 h3
    subst h1 h2 h3
    cases angles <;> simp [Sig.text, Generics.angleText, Generics.whereText, commas]
  · intro ht
    have hI : (commas inputs ++ (if variadic = true then [c!"..."] else [])) = [] ↔ inputs = [] ∧ variadic = false := by
      cases variadic <;> simp [hci]
    have hW : Generics.whereText ⟨angles, params, wh⟩ = [] ↔ wh = none := by
      cases wh <;> simp [Generics.whereText]
    have hW' : Generics.whereText ⟨angles, params, wh⟩ = [] ∨ ∃ r, Generics.whereText ⟨angles, params, wh⟩ = c!"where" :: r := by
      cases wh <;> simp [Generics.whereText]
    obtain ⟨O, hOdef⟩ : ∃ O, O = (match output with | .default => [] | .never => [c!"->", c!"!"] | .type ty => [c!"->"] ++ ty) := ⟨_, rfl⟩
    have hO : O = [] ∨ ∃ ty, O = c!"->" :: ty := by cases output <;> simp [hOdef]
    have hO' : O = [c!"->", c!"!"] → output = .never := by
      cases output <;> simp_all
    simp only [Sig.text, ← hOdef] at ht
    generalize Generics.whereText ⟨angles, params, wh⟩ = W at *
    cases constness
    case true => simp at ht
    cases asyncness
    case true => simp at ht
    cases unsafety
    case true => simp at ht
    rcases abi with _ | _ | abi
    case some.none => simp at ht
    case some.some => simp at ht
    simp only [true_and]
    have e : ∀ A : Toks, [c!"fn", ident] ++ A ++ [c!"("] ++ commas inputs ++ (if variadic = true then [c!"..."] else []) ++ [c!")"] ++ O ++ W =
        c!"fn" :: ident :: (A ++ (c!"(" :: ((commas inputs ++ (if variadic = true then [c!"..."] else [])) ++ (c!")" :: (O ++ W))))) := by
      intro A; simp
    have ht' : [c!"fn", ident] ++ (Generics.angleText ⟨angles, params, wh⟩) ++ [c!"("] ++ commas inputs ++
        (if variadic = true then [c!"..."] else []) ++ [c!")"] ++ O ++ W = [c!"fn", ident, c!"(", c!")", c!"->", c!"!"] ∨
        [c!"fn", ident] ++ (Generics.angleText ⟨angles, params, wh⟩) ++ [c!"("] ++ commas inputs ++
        (if variadic = true then [c!"..."] else []) ++ [c!")"] ++ O ++ W =
          [c!"fn", ident, c!"<", c!">", c!"(", c!")", c!"->", c!"!"] := by cases output <;> subst hOdef <;> simpa using ht
    rw [e] at ht'
    generalize commas inputs ++ (if variadic = true then [c!"..."] else []) = I at *
    cases angles
    · have hp0 : params = [] := by
        cases params with
        | nil => rfl
        | cons p ps => exact absurd (ha (by simp)) (by simp)
      simp [Generics.angleText] at ht'
      obtain ⟨h1, h2, h3⟩ := inputs_exact hO hW' ht'
      exact ⟨hp0, hW.mp h3, (hI.mp h1).2, (hI.mp h1).1, hO' h2⟩
    · simp [Generics.angleText] at ht'
      obtain ⟨h0, h1, h2, h3⟩ := angles_exact hO hW' ht'
      exact ⟨hcp.mp h0, hW.mp h3, (hI.mp h1).2, (hI.mp h1).1, hO' h2⟩

theorem struct_exact {s : ItemStruct} (h : s.generics.Proper) :
    (s.generics.params = [] ∧ s.generics.whereClause = none ∧ s.fields = .unit) ↔
    (s.text = [c!"struct", s.ident, c!";"] ∨ s.text = [c!"struct", s.ident, c!"<", c!">", c!";"]) := by
  obtain ⟨attrs, vis, ident, ⟨angles, params, wh⟩, fields⟩ := s
  obtain ⟨ha, hp⟩ := h
  simp only at ha hp
  have hcp := commas_eq_nil hp
  constructor
  · rintro ⟨h1, h2, h3⟩
    simp only at h1 h2 h3
    subst h1 h2 h3
    cases angles <;> simp [ItemStruct.text, Generics.angleText, Generics.whereText, commas]
  · intro ht
    cases angles
    · have hp0 : params = [] := by
        cases params with
        | nil => rfl
        | cons p ps => exact absurd (ha (by simp)) (by simp)
      subst hp0
      cases wh <;> cases fields <;> simp [ItemStruct.text, Generics.angleText, Generics.whereText] at ht ⊢
    · simp only [ItemStruct.text, Generics.angleText, Generics.whereText] at ht
      generalize commas params = P at *
      rcases P with _ | ⟨a, _ | ⟨b, P⟩⟩
      · cases wh <;> cases fields <;> simp at ht ⊢
        exact hcp.mp rfl
      · cases wh <;> cases fields <;> simp at ht
      · exfalso
        have := congrArg List.length (ht.resolve_left (by simp))
        cases wh <;> cases fields <;> simp at this <;> omega

theorem conflicts_ok (l : List Tok) (attrs : List Attr) :
    checkForAttributeConflicts l attrs = .ok () ↔ ∀ a ∈ attrs, ∀ n ∈ l, a.path ≠ [n] := by
  induction attrs with
  | nil => simp [checkForAttributeConflicts]
  | cons a rest ih =>
    rw [checkForAttributeConflicts]
    rcases hp : a.path with _ | ⟨n, _ | ⟨m, p⟩⟩
    · simp [getIdent, ih, hp]
    · simp only [getIdent]
      split
      · rename_i hn
        simp [hp]
        intro h; exact absurd rfl (h _ hn)
      · rename_i hn
        simp [ih, hp]
        intro _ x hx e
        subst e; exact hn hx
    · simp [getIdent, ih, hp]

theorem validateFn_ok (f : ItemFn) :
    validateFn f = .ok () ↔
      (f.sig.constness = false ∧ f.sig.asyncness = false ∧ f.sig.unsafety = false ∧ f.sig.abi = none ∧ f.sig.generics.params = [] ∧
        f.sig.generics.whereClause = none ∧ f.sig.variadic = false ∧ f.sig.inputs = [] ∧ f.sig.output = .never) ∧
      checkForAttributeConflicts [c!"export_name", c!"no_mangle"] f.attrs = .ok () := by
  obtain ⟨attrs, vis, ⟨constness, asyncness, unsafety, abi, ident, ⟨angles, params, wh⟩, inputs, variadic, output⟩, block⟩ := f
  unfold validateFn
  cases constness <;> cases asyncness <;> cases unsafety <;> cases abi <;> cases params <;> cases wh <;> cases variadic <;> cases inputs <;>
    cases output <;> simp

theorem crateMeta_some {parsePath : Toks → Option (List Tok)} {e : Meta} {r : List Tok} :
    crateMeta parsePath e = some r ↔ GivesPath parsePath e r := by
  obtain ⟨path, rest⟩ := e
  unfold crateMeta GivesPath
  rcases path with _ | ⟨a, _ | ⟨b, path⟩⟩ <;> rcases rest with _ | ⟨t, rest⟩ <;> simp [getIdent]
  intro _
  constructor
  · rintro ⟨h2, h3⟩
    exact ⟨rest, ⟨h2, rfl⟩, h3⟩
  · rintro ⟨_, ⟨h2, rfl⟩, h3⟩
    exact ⟨h2, h3⟩

theorem crateMetas_some {parsePath : Toks → Option (List Tok)} {p r : List Tok} {entries : List Meta} :
    crateMetas parsePath p entries = some r ↔ CratePath parsePath p entries r := by
  induction entries generalizing p with
  | nil => simp [crateMetas, CratePath, eq_comm]
  | cons e rest ih =>
    rw [crateMetas]
    cases hm : crateMeta parsePath e with
    | none =>
      simp only [CratePath, reduceCtorEq, false_iff]
      rintro ⟨h, _⟩
      obtain ⟨q, hq⟩ := h e (by simp)
      rw [crateMeta_some.mpr hq] at hm
      cases hm
    | some q =>
      have hq := crateMeta_some.mp hm
      simp only [ih]
      unfold CratePath
      constructor
      · rintro ⟨h1, h2⟩
        refine ⟨?_, ?_⟩
        · intro x hx
          rcases List.mem_cons.mp hx with rfl | hx
          · exact ⟨q, hq⟩
          · exact h1 x hx
        · right
          rcases h2 with ⟨rfl, rfl⟩ | ⟨x, hx, hr⟩
          · exact ⟨e, by simp, hq⟩
          · refine ⟨x, ?_, hr⟩
            cases rest with
            | nil => simp at hx
            | cons y ys => simpa [List.getLast?_cons_cons] using hx
      · rintro ⟨h1, h2⟩
        refine ⟨fun x hx => h1 x (by simp [hx]), ?_⟩
        rcases h2 with ⟨h, _⟩ | ⟨x, hx, hr⟩
        · cases h
        · cases rest with
          | nil =>
            simp at hx; subst hx
            left
            have := crateMeta_some.mpr hr
            rw [hm] at this
            exact ⟨rfl, (Option.some.inj this).symm⟩
          | cons y ys => exact .inr ⟨x, by simpa [List.getLast?_cons_cons] using hx, hr⟩

theorem crateMetas_append {parsePath : Toks → Option (List Tok)} {p : List Tok} {a b : List Meta} :
    crateMetas parsePath p (a ++ b) = (crateMetas parsePath p a).bind fun q => crateMetas parsePath q b := by
  induction a generalizing p with
  | nil => rfl
  | cons e rest ih =>
    simp only [List.cons_append, crateMetas]
    cases crateMeta parsePath e <;> simp [ih]

theorem crateAttrs_eq {parsePath : Toks → Option (List Tok)} {p : List Tok} {attrs : List (List Meta)} :
    crateAttrs parsePath p (attrs.map .list) = crateMetas parsePath p attrs.flatten := by
  induction attrs generalizing p with
  | nil => rfl
  | cons a rest ih =>
    simp only [List.map_cons, crateAttrs, List.flatten_cons, crateMetas_append]
    cases crateMetas parsePath p a <;> simp [ih]

theorem crateAttrs_lists {parsePath : Toks → Option (List Tok)} {p r : List Tok} {attrs : List DefmtAttr}
    (h : crateAttrs parsePath p attrs = some r) : ∃ lists : List (List Meta), attrs = lists.map .list := by
  induction attrs generalizing p with
  | nil => exact ⟨[], rfl⟩
  | cons a rest ih =>
    cases a with
    | bare => simp [crateAttrs] at h
    | list entries =>
      rw [crateAttrs] at h
      split at h
      · cases h
      · obtain ⟨ls, hl⟩ := ih h
        exact ⟨entries :: ls, by simp [hl]⟩

end Defmt.Attributes
