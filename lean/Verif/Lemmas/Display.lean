import Verif.Spec.Display
import Verif.Lemmas.Frame
import Verif.Lemmas.DecodeSafe
import Verif.Lemmas.Prepare
import Verif.Props.Decoder
/-! Lemmas for C33. -/

namespace Defmt.Display

open Parser Decoder

theorem showArgs_eq (env : Env) (args : List Arg) : showArgs env args = args.map (showArg env) := by
  induction args with
  | nil => rfl
  | cons a as ih => rw [showArgs, ih]; rfl

theorem showElements_eq (env : Env) (elems : List Arg) (h : ∀ e ∈ elems, ∃ f as, e = .format f as) (hint : Option Hint) :
    (showElements env elems).map (fun s => s hint) = elems.map (fun e => showArg env e ⟨0, .format, none⟩ hint) := by
  induction elems with
  | nil => rfl
  | cons e es ih =>
    obtain ⟨f, as, rfl⟩ := h e (by simp)
    rw [showElements, List.map_cons, List.map_cons, ih (fun e he => h e (by simp [he]))]
    congr 1
    simp only [showArg]
    split
    · rfl
    · cases hint <;> rfl

theorem concat_some {l : List (Option (List Char))} (h : ∀ x ∈ l, ∃ s, x = some s) : ∃ s, concat l = some s := by
  induction l with
  | nil => exact ⟨_, rfl⟩
  | cons x l ih =>
    obtain ⟨s, rfl⟩ := h x (by simp)
    obtain ⟨r, hr⟩ := ih (fun y hy => h y (by simp [hy]))
    exact ⟨s ++ r, by rw [concat, hr]; rfl⟩

theorem comma_some {l : List (Option (List Char))} (h : ∀ x ∈ l, ∃ s, x = some s) : ∃ s, commaSeparated l = some s := by
  induction l with
  | nil => exact ⟨_, rfl⟩
  | cons x l ih =>
    obtain ⟨s, rfl⟩ := h x (by simp)
    obtain ⟨r, hr⟩ := ih (fun y hy => h y (by simp [hy]))
    cases l with
    | nil => exact ⟨s, rfl⟩
    | cons y l => exact ⟨s ++ c!", " ++ r, by rw [commaSeparated.eq_def]; simp only [hr]⟩

theorem bracketed_some {l : List (Option (List Char))} (h : ∀ x ∈ l, ∃ s, x = some s) : ∃ s, bracketed l = some s := by
  obtain ⟨s, hs⟩ := comma_some h
  exact ⟨_, by rw [bracketed, hs]; rfl⟩

theorem pad_some {env : Env} {neg pre ds w} (h : ¬ env.maxWidth < w) : ∃ s, padIntegral env neg pre ds w = some s := by
  unfold padIntegral
  rw [if_neg (by omega)]
  exact ⟨_, rfl⟩

theorem u128_some {env : Env} {x : Nat} {hint : Option Hint} (h : ¬ TooWide env hint) :
    ∃ s, formatU128 env x hint = some s := by
  unfold formatU128
  split
  all_goals first | exact pad_some h | exact ⟨_, rfl⟩

theorem bytes_some {env : Env} {bs : List UInt8} {hint : Option Hint}
    (h : ¬ (bs ≠ [] ∧ TooWide env hint ∧ ∀ w, hint ≠ some (.noHint w))) : ∃ s, formatBytes env bs hint = some s := by
  have key : (∀ w, hint ≠ some (.noHint w)) → ∃ s, bracketed (bs.map (fun b => formatU128 env b.toNat hint)) = some s := by
    intro hno
    refine bracketed_some ?_
    intro x hx
    obtain ⟨b, hb, rfl⟩ := List.mem_map.mp hx
    exact u128_some fun hw => h ⟨List.ne_nil_of_mem hb, hw, hno⟩
  unfold formatBytes
  split
  · exact ⟨_, rfl⟩
  all_goals first
    | exact ⟨_, rfl⟩
    | exact key (by simp)
    | (refine bracketed_some ?_
       intro x hx
       obtain ⟨b, _, rfl⟩ := List.mem_map.mp hx
       exact ⟨_, rfl⟩)

theorem i128_some {env : Env} {x : Int} {ty : Ty} {hint : Option Hint} (h : ¬ TooWide env hint) (ht : ty ∈ signedTys)
    (hi : ¬ (ty = .isize ∧ ∃ alt up w, hint = some (.hexadecimal alt up w))) : ∃ s, formatI128 env x ty hint = some s := by
  unfold formatI128
  split
  · exact pad_some h
  · exact pad_some h
  · exact pad_some h
  · split
    · rename_i alt up w hb
      exfalso
      simp only [signedTys, List.mem_cons, List.not_mem_nil, or_false] at ht
      rcases ht with rfl | rfl | rfl | rfl | rfl | rfl <;> first | exact hi ⟨rfl, _, _, _, rfl⟩ | cases hb
    · exact pad_some h
  · exact ⟨_, rfl⟩

theorem uxx_some {env : Env} {x : Nat} {p : Parameter} {h : Option Hint} (hb : ¬ Bad env (.uxx x, p, h)) :
    ∃ s, formatUxx env x p.ty (p.hint <|> h) h = some s := by
  simp only [Bad, not_or] at hb
  obtain ⟨h1, h2⟩ := hb
  unfold formatUxx
  split
  · simp only
    split
    · rename_i ha
      rw [ha]
      exact ⟨_, rfl⟩
    · exact u128_some h1
  · rename_i hty
    have h2 := fun hb => h2 ⟨hty, hb⟩
    split
    · rename_i prec hh
      unfold formatIso8601
      rw [if_neg]
      · exact ⟨_, rfl⟩
      · intro hgt
        apply h2
        refine .inr ⟨prec, hh, ?_⟩
        cases prec <;> exact hgt
    · rename_i hh
      exact u128_some fun hw => h2 (.inl ⟨hh, hw⟩)
    · exact u128_some h1

theorem formatArgs_some {f : List Char} {fs : List Fragment} {args : List Shower} {parent : Option Hint}
    (hp : parse f .forwardsCompatible = .ok fs) (h1 : ∀ p ∈ params fs, p.index < args.length)
    (h2 : ∀ p ∈ params fs, ∀ s, args[p.index]? = some s → ∃ o, s p parent = some o) :
    ∃ o, formatArgs f args parent = some o := by
  unfold formatArgs
  rw [hp]
  refine concat_some ?_
  intro x hx
  obtain ⟨fr, hfr, rfl⟩ := List.mem_map.mp hx
  cases fr with
  | literal s => exact ⟨_, rfl⟩
  | param p =>
    have hpm : p ∈ params fs := by
      clear h1 h2 hp hx
      induction fs with
      | nil => simp at hfr
      | cons g fs ih =>
        cases g with
        | literal _ => simp only [params]; exact ih (by simpa using hfr)
        | param q => simp only [params, List.mem_cons] at hfr ⊢; rcases hfr with h | h
                     · left; cases h; rfl
                     · right; exact ih h
    have hlt := h1 p hpm
    obtain ⟨o, ho⟩ := h2 p hpm args[p.index] (List.getElem?_eq_getElem hlt)
    refine ⟨o, ?_⟩
    simp only [formatFragment, List.getElem?_eq_getElem hlt, ho]

theorem parse_eq_question : parse c!"{=?}" .forwardsCompatible = .ok [.param ⟨0, .format, none⟩] := by decide +kernel

theorem parse_u8 : parse c!"{=u8}" .forwardsCompatible = .ok [.param ⟨0, .u8, none⟩] := by decide +kernel

theorem elementByte_isSome {e : Arg} : (∃ b, elementByte e = some b) ↔ IsByte e := by
  constructor
  · rintro ⟨b, h⟩
    unfold elementByte at h
    split at h
    · rename_i f v
      split at h
      · exact ⟨f, v, rfl, by assumption⟩
      · cases h
    · cases h
  · rintro ⟨f, v, rfl, hv⟩
    exact ⟨UInt8.ofNat v, by simp only [elementByte, if_pos hv]⟩

theorem allBytes_some {es : List Arg} (h : ∀ e ∈ es, IsByte e) : ∃ bs, allBytes es = some bs := by
  induction es with
  | nil => exact ⟨_, rfl⟩
  | cons e es ih =>
    obtain ⟨bs, hbs⟩ := ih (fun e he => h e (by simp [he]))
    obtain ⟨b, hb⟩ := elementByte_isSome.2 (h e (by simp))
    exact ⟨b :: bs, by rw [allBytes, hbs, hb]⟩

theorem allBytes_none {es : List Arg} {e : Arg} (he : e ∈ es) (hn : ¬ IsByte e) : allBytes es = none := by
  induction es with
  | nil => cases he
  | cons e' es ih =>
    rw [allBytes]
    rcases List.mem_cons.1 he with rfl | he
    · cases hb : elementByte e with
      | none => rfl
      | some b => exact absurd (elementByte_isSome.1 ⟨b, hb⟩) hn
    · rw [ih he]
      cases elementByte e' <;> rfl

/-- An argument that fits is displayed, unless it leads to one of the bad cases. -/
theorem show_some {env : Env} {a : Arg} {ty : Ty} (hf : Fits a ty) : ∀ (p : Parameter) (h : Option Hint), p.ty = ty →
    (∀ x, Reaches a p h x → ¬ Bad env x) → ∃ s, showArg env a p h = some s := by
  induction hf with
  | unsigned _ _ =>
    intro p h hty hb
    exact uxx_some (hb _ .here)
  | bits =>
    intro p h hty hb
    exact uxx_some (hb _ .here)
  | signed ht =>
    intro p h hty hb
    have := hb _ .here
    simp only [Bad, not_or] at this
    exact i128_some this.1 (by rw [hty]; exact ht) this.2
  | slice =>
    intro p h hty hb
    exact bytes_some (hb _ .here)
  | array =>
    intro p h hty hb
    exact bytes_some (hb _ .here)
  | bool => intro p h _ _; exact ⟨_, rfl⟩
  | f32 => intro p h _ _; exact ⟨_, rfl⟩
  | f64 => intro p h _ _; exact ⟨_, rfl⟩
  | str => intro p h _ _; exact ⟨_, rfl⟩
  | istr => intro p h _ _; exact ⟨_, rfl⟩
  | char => intro p h _ _; exact ⟨_, rfl⟩
  | debug => intro p h _ _; exact ⟨_, rfl⟩
  | display => intro p h _ _; exact ⟨_, rfl⟩
  | format hp h1 h2 ih =>
    intro p h hty hb
    simp only [showArg, showArgs_eq]
    refine formatArgs_some hp (fun p hp => by simpa using (h1 p.index).mpr ⟨p, hp, rfl⟩) ?_
    intro q hq s hs
    rw [List.getElem?_map, Option.map_eq_some_iff] at hs
    obtain ⟨b, hb1, rfl⟩ := hs
    exact ih q hq b hb1 q _ rfl (fun x hx => hb x (.format hp hq hb1 hx))
  | sequence h1 ih =>
    intro p h hty hb
    simp only [showArg, showArgs_eq]
    refine concat_some ?_
    intro x hx
    rw [List.map_map] at hx
    obtain ⟨a, ha, rfl⟩ := List.mem_map.mp hx
    refine formatArgs_some parse_eq_question (by simp [params]) ?_
    intro q hq s hs
    simp only [params, List.mem_singleton] at hq
    subst hq
    simp only [List.getElem?_cons_zero, Option.some.injEq] at hs
    subst hs
    exact ih a ha _ _ rfl (fun x hx => hb x (.sequence ha hx))
  | @formatSlice elems s ty hty' h1 h2 ih =>
    intro p h hty hb
    simp only [showArg]
    split
    · rename_i hasc
      have hbad := hb _ .here
      obtain ⟨e0, he0, hu0⟩ := List.any_eq_true.mp hasc.2
      have hall : ∀ e ∈ elems, IsByte e := by
        intro e he
        refine Classical.byContradiction fun hn => hbad ⟨⟨hasc.1, ?_⟩, e, he, hn⟩
        obtain ⟨f, as, rfl⟩ : ∃ f as, e0 = .format f as := by obtain ⟨f, as, h, _⟩ := h2 e0 he0; exact ⟨f, as, h⟩
        simp only [isU8Element, decide_eq_true_eq] at hu0
        subst hu0
        exact ⟨as, he0⟩
      obtain ⟨bs, hbs⟩ := allBytes_some hall
      rw [hbs]
      simp only [hasc.1]
      exact ⟨_, rfl⟩
    · rw [showElements_eq env elems (fun e he => by obtain ⟨f, as, h, _⟩ := h2 e he; exact ⟨f, as, h⟩)]
      refine bracketed_some ?_
      intro x hx
      obtain ⟨e, he, rfl⟩ := List.mem_map.mp hx
      rename_i hno
      refine ih e he _ _ rfl (fun x hx => hb x (.slice he (fun ⟨h1, as, h2⟩ => hno ⟨h1, ?_⟩) hx))
      exact List.any_eq_true.mpr ⟨_, h2, by simp [isU8Element]⟩

theorem isByte_of_fits {args : List Arg} (h : Fits (.format c!"{=u8}" args) .format) : IsByte (.format c!"{=u8}" args) := by
  cases h with
  | @format f args fs hp h3 h4 =>
    rw [parse_u8] at hp
    injection hp with hp
    subst hp
    have hlen : args.length = 1 := by
      have a := (h3 0).mpr ⟨⟨0, .u8, none⟩, by simp [params], rfl⟩
      have b : ¬ 1 < args.length := by
        intro h
        obtain ⟨p, hp, hpi⟩ := (h3 1).mp h
        simp only [params, List.mem_singleton] at hp
        subst hp
        cases hpi
      omega
    match args, hlen with
    | [x], _ =>
      have h4 := h4 ⟨0, .u8, none⟩ (by simp [params]) x rfl
      cases h4 with
      | @unsigned n _ bound hm hn =>
        have hb : n < 256 := by
          simp [unsignedTypes] at hm
          omega
        exact ⟨_, n, rfl, hb⟩
      | signed hm => simp [signedTys] at hm
      | formatSlice hm => simp at hm

/-! ### the bad cases do panic -/

theorem concat_none {l : List (Option (List Char))} (h : none ∈ l) : concat l = none := by
  induction l with
  | nil => cases h
  | cons x l ih =>
    cases x with
    | none => rfl
    | some s => rw [concat, ih (by simpa using h)]; rfl

theorem comma_none {l : List (Option (List Char))} (h : none ∈ l) : commaSeparated l = none := by
  induction l with
  | nil => cases h
  | cons x l ih =>
    cases l with
    | nil => rw [List.mem_singleton] at h; rw [commaSeparated]; exact h.symm
    | cons y l =>
      rw [commaSeparated.eq_def]
      cases x with
      | none => rfl
      | some s => simp only [ih (by simpa using h)]

theorem bracketed_none {l : List (Option (List Char))} (h : none ∈ l) : bracketed l = none := by
  rw [bracketed, comma_none h]; rfl

theorem pad_none {env : Env} {neg pre ds w} (h : env.maxWidth < w) : padIntegral env neg pre ds w = none := by
  unfold padIntegral; rw [if_pos (by omega)]

theorem u128_none {env : Env} {x : Nat} {hint : Option Hint} (h : TooWide env hint) : formatU128 env x hint = none := by
  unfold TooWide at h
  split at h
  · exact pad_none h
  · exact pad_none h
  · exact pad_none h
  · exact pad_none h
  · exact h.elim

theorem bytes_none {env : Env} {bs : List UInt8} {hint : Option Hint} (hne : bs ≠ []) (h : TooWide env hint)
    (hno : ∀ w, hint ≠ some (.noHint w)) : formatBytes env bs hint = none := by
  obtain ⟨b, bs, rfl⟩ := List.exists_cons_of_ne_nil hne
  have key : bracketed ((b :: bs).map (fun b => formatU128 env b.toNat hint)) = none :=
    bracketed_none (List.mem_map.2 ⟨b, by simp, u128_none h⟩)
  unfold TooWide at h
  split at h
  · exact absurd rfl (hno _)
  · exact key
  · exact key
  · exact key
  · exact h.elim

theorem uxx_none {env : Env} {x : Nat} {p : Parameter} {h : Option Hint} (hb : Bad env (.uxx x, p, h)) :
    formatUxx env x p.ty (p.hint <|> h) h = none := by
  simp only [Bad] at hb
  unfold formatUxx
  split
  · rename_i s e hty
    rcases hb with hb | ⟨hb, _⟩
    · simp only
      split
      · rename_i ha
        rw [ha] at hb
        exact hb.elim
      · exact u128_none hb
    · exact absurd hty (hb s e)
  · rename_i hty
    split
    · rename_i prec hh
      rw [hh] at hb
      rcases hb with hb | ⟨_, ⟨hb, _⟩ | ⟨prec', hb, hlt⟩⟩
      · exact hb.elim
      · cases hb
      · simp only [Option.some.injEq, Hint.iso8601.injEq] at hb
        subst hb
        unfold formatIso8601
        cases prec <;> exact if_pos hlt
    · rename_i hh
      rw [hh] at hb
      rcases hb with hb | ⟨_, ⟨_, hb⟩ | ⟨prec', hb, _⟩⟩
      · exact hb.elim
      · exact u128_none hb
      · cases hb
    · rename_i h1 h2
      rcases hb with hb | ⟨_, ⟨hb, _⟩ | ⟨prec', hb, _⟩⟩
      · exact u128_none hb
      · exact absurd hb h2
      · exact absurd hb (h1 prec')

theorem i128_none {env : Env} {x : Int} {p : Parameter} {h : Option Hint} (hb : Bad env (.ixx x, p, h)) :
    formatI128 env x p.ty (p.hint <|> h) = none := by
  simp only [Bad] at hb
  generalize (p.hint <|> h) = hint at hb
  rcases hb with hb | ⟨ht, alt, up, w, rfl⟩
  · unfold TooWide at hb
    split at hb
    · exact pad_none hb
    · exact pad_none hb
    · exact pad_none hb
    · simp only [formatI128]
      split
      · rfl
      · exact pad_none hb
    · exact hb.elim
  · rw [ht]; rfl

theorem param_mem {fs : List Fragment} {q : Parameter} (h : q ∈ params fs) : .param q ∈ fs := by
  induction fs with
  | nil => cases h
  | cons f fs ih =>
    cases f with
    | literal s => exact List.mem_cons_of_mem _ (ih h)
    | param p =>
      rw [params] at h
      rcases List.mem_cons.1 h with rfl | h
      · exact List.mem_cons_self ..
      · exact List.mem_cons_of_mem _ (ih h)

theorem formatArgs_none {f : List Char} {fs : List Fragment} {args : List Shower} {parent : Option Hint}
    (hp : parse f .forwardsCompatible = .ok fs) {q : Parameter} (hq : q ∈ params fs) {s : Shower} (hs : args[q.index]? = some s)
    (h : s q parent = none) : formatArgs f args parent = none := by
  unfold formatArgs
  rw [hp]
  refine concat_none (List.mem_map.2 ⟨.param q, param_mem hq, ?_⟩)
  simp only [formatFragment, hs, h]

theorem showElements_none {env : Env} {elems : List Arg} {e : Arg} (he : e ∈ elems) (hint : Option Hint)
    (h : showArg env e ⟨0, .format, none⟩ hint = none) : none ∈ (showElements env elems).map (fun s => s hint) := by
  induction elems with
  | nil => cases he
  | cons e' es ih =>
    rcases List.mem_cons.1 he with rfl | he'
    · cases e with
      | format f as =>
        rw [showElements, List.map_cons]
        refine List.mem_cons.2 (.inl ?_)
        simp only [showArg] at h
        have hh : (if hint = some .ascii then hint else (none <|> hint)) = hint := by split <;> cases hint <;> rfl
        rw [hh] at h
        exact h.symm
      | _ => rw [showElements, List.map_cons]; exact List.mem_cons_self .. ; exact fun _ _ h => by cases h
    · cases e' with
      | format f as => rw [showElements, List.map_cons]; exact List.mem_cons_of_mem _ (ih he')
      | _ => rw [showElements, List.map_cons]; exact List.mem_cons_of_mem _ (ih he'); exact fun _ _ h => by cases h

theorem show_none {env : Env} {a : Arg} {p : Parameter} {h : Option Hint} {x : Arg × Parameter × Option Hint} (hr : Reaches a p h x)
    (hb : Bad env x) : showArg env a p h = none := by
  induction hr with
  | @here a p h =>
    cases a with
    | uxx n => exact uxx_none hb
    | ixx n => exact i128_none hb
    | slice bs => exact bytes_none hb.1 hb.2.1 hb.2.2
    | formatSlice elems =>
      obtain ⟨⟨h1, as, h2⟩, e, he, hn⟩ := hb
      simp only [showArg]
      rw [if_pos ⟨h1, List.any_eq_true.mpr ⟨_, h2, by simp [isU8Element]⟩⟩, allBytes_none he hn]
    | _ => exact hb.elim
  | @format f args fs p h q b x hp hq hb' _ ih =>
    simp only [showArg, showArgs_eq]
    exact formatArgs_none hp hq (by rw [List.getElem?_map, hb']; rfl) (ih hb)
  | @sequence args p h a x ha _ ih =>
    simp only [showArg, showArgs_eq]
    refine concat_none (List.mem_map.2 ⟨_, List.mem_map.2 ⟨a, ha, rfl⟩, ?_⟩)
    exact formatArgs_none parse_eq_question (q := ⟨0, .format, none⟩) (by simp [params]) rfl (ih hb)
  | @slice elems p h e x he hno _ ih =>
    simp only [showArg]
    rw [if_neg, bracketed_none (showElements_none he _ (ih hb))]
    rintro ⟨h1, h2⟩
    obtain ⟨e0, he0, hu⟩ := List.any_eq_true.mp h2
    refine hno ⟨h1, ?_⟩
    unfold isU8Element at hu
    split at hu
    · rename_i f as
      simp only [decide_eq_true_eq] at hu
      subst hu
      exact ⟨as, he0⟩
    · cases hu

/-! ### decoded arguments fit -/

theorem always_readUInt (n : Nat) : Always (readUInt n) (· < 2 ^ (8 * n)) := by
  intro bs a r h
  exact readUInt_lt h

theorem always_readBytes (n : Nat) : Always (readBytes n) (fun b => b.length = n) := by
  intro bs a r h
  unfold readBytes at h
  split at h
  · cases h
  · simp only [Res.ok.injEq] at h
    rw [← h.1, List.length_take]
    omega

section
variable {t : Table} {rec : List Char → Dec (List Arg)}

theorem fits_elements {f : List Char} (hr : ∀ f, Always (rec f) (fun as => Fits (.format f as) .format)) (n : Nat) :
    Always (decodeElements rec f n) (fun es => es.length = n ∧ (∀ e ∈ es, Fits e .format) ∧
      ∀ e ∈ es, ∃ g as, e = .format g as ∧ IsVariant g f) := by
  induction n with
  | zero => exact Always.pure (by simp)
  | succ n ih =>
    refine Always.bind (Always.chooseVariant f) fun v hv => Always.bind (hr v) fun as ha => Always.bind ih fun rs hrs => Always.pure ?_
    refine ⟨by simp [hrs.1], ?_, ?_⟩
    · intro e he
      rcases List.mem_cons.mp he with rfl | he
      · exact ha
      · exact hrs.2.1 e he
    · intro e he
      rcases List.mem_cons.mp he with rfl | he
      · exact ⟨v, as, rfl, hv⟩
      · exact hrs.2.2 e he

theorem fits_slice (hr : ∀ f, Always (rec f) (fun as => Fits (.format f as) .format)) (n : Nat) :
    Always (decodeFormatSlice t rec n) (fun es => ∃ f, es.length = n ∧ (∀ e ∈ es, Fits e .format) ∧
      ∀ e ∈ es, ∃ g as, e = .format g as ∧ IsVariant g f) := by
  refine Always.bind (Always.trivial _) fun f _ => ?_
  split
  · intro bs a r h; cases h
  · intro bs a r h
    exact ⟨f, fits_elements hr n bs a r h⟩

theorem fits_sequence (hr : ∀ f, Always (rec f) (fun as => Fits (.format f as) .format)) (n : Nat) :
    Always (decodeSequence t rec n) (fun es => ∀ e ∈ es, Fits e .format) := by
  induction n with
  | zero => intro bs a r h; cases h
  | succ n ih =>
    refine Always.bind (Always.trivial _) fun i _ => ?_
    split
    · exact Always.pure (by simp)
    · refine Always.bind (Always.trivial _) fun f _ => Always.bind (hr f) fun as ha => Always.bind ih fun rs hrs =>
        Always.pure ?_
      intro e he
      rcases List.mem_cons.mp he with rfl | he
      · exact ha
      · exact hrs e he

theorem fits_arg (hr : ∀ f, Always (rec f) (fun as => Fits (.format f as) .format)) (fuel : Nat) (ty : Ty) :
    Always (decodeArg t rec fuel ty) (fun a => Fits a ty) := by
  cases ty with
  | formatSlice =>
    exact Always.bind (Always.trivial _) fun n _ => Always.bind (fits_slice hr n)
      fun es ⟨f, _, h2, h3⟩ => Always.pure (.formatSlice (Or.inl rfl) h2 h3)
  | formatArray n =>
    exact Always.bind (fits_slice hr n)
      fun es ⟨f, h1, h2, h3⟩ => Always.pure (.formatSlice (Or.inr (by rw [h1])) h2 h3)
  | formatSequence =>
    exact Always.bind (fits_sequence hr fuel) fun es h => Always.pure (.sequence h)
  | format =>
    exact Always.bind (Always.trivial _) fun f _ => Always.bind (Always.trivial _)
      fun v _ => Always.bind (hr v) fun as ha => Always.pure ha
  | istr =>
    exact Always.bind (Always.trivial _) fun i _ => Always.bind (Always.trivial _) fun s _ => Always.pure .istr
  | bool =>
    refine Always.bind (Always.trivial _) fun b _ => ?_
    split
    · exact Always.pure .bool
    · split
      · exact Always.pure .bool
      · exact Always.fail _
  | bitField s e =>
    rw [Decoder.decodeArg]
    split
    · intro bs a r h; cases h
    · exact Always.bind (Always.trivial _) fun _ _ => Always.pure .bits
  | str =>
    exact Always.bind (Always.trivial _) fun _ _ => Always.bind (Always.trivial _) fun _ _ =>
      Always.bind (Always.trivial _) fun _ _ => Always.pure .str
  | u8Slice =>
    exact Always.bind (Always.trivial _) fun _ _ => Always.bind (Always.trivial _) fun _ _ => Always.pure .slice
  | u8Array n => exact Always.bind (always_readBytes n) fun _ h => Always.pure (.array h)
  | char =>
    exact Always.bind (Always.trivial _) fun _ _ => Always.bind (Always.trivial _) fun _ _ => Always.pure .char
  | debug =>
    exact Always.bind (Always.trivial _) fun _ _ => Always.bind (Always.trivial _) fun _ _ => Always.pure .debug
  | display =>
    exact Always.bind (Always.trivial _) fun _ _ => Always.bind (Always.trivial _) fun _ _ => Always.pure .display
  | f32 => exact Always.bind (Always.trivial _) fun _ _ => Always.pure .f32
  | f64 => exact Always.bind (Always.trivial _) fun _ _ => Always.pure .f64
  | u8 => exact Always.bind (always_readUInt _) fun _ h => Always.pure (.unsigned (by simp [unsignedTypes]) h)
  | u16 => exact Always.bind (always_readUInt _) fun _ h => Always.pure (.unsigned (by simp [unsignedTypes]) h)
  | u32 => exact Always.bind (always_readUInt _) fun _ h => Always.pure (.unsigned (by simp [unsignedTypes]) h)
  | u64 => exact Always.bind (always_readUInt _) fun _ h => Always.pure (.unsigned (by simp [unsignedTypes]) h)
  | u128 => exact Always.bind (always_readUInt _) fun _ h => Always.pure (.unsigned (by simp [unsignedTypes]) h)
  | usize => exact Always.bind (always_readUInt _) fun _ h => Always.pure (.unsigned (by simp [unsignedTypes]) h)
  | _ => exact Always.bind (Always.trivial _) fun _ _ => Always.pure (.signed (by simp [signedTys]))

theorem fits_params (hr : ∀ f, Always (rec f) (fun as => Fits (.format f as) .format)) (fuel : Nat) (ps : List Parameter) :
    Always (decodeParams t rec fuel ps) (fun as => as.length = ps.length ∧
      ∀ (i : Nat) a, as[i]? = some a → ∃ p, ps[i]? = some p ∧ Fits a p.ty) := by
  induction ps with
  | nil => exact Always.pure (by simp)
  | cons p ps ih =>
    refine Always.bind (fits_arg hr fuel p.ty) fun a ha => Always.bind ih fun as has => Always.pure ?_
    refine ⟨by simp [has.1], ?_⟩
    intro i b hb
    cases i with
    | zero => simp only [List.getElem?_cons_zero, Option.some.injEq] at hb ⊢; subst hb; exact ⟨p, rfl, ha⟩
    | succ i => simp only [List.getElem?_cons_succ] at hb ⊢; exact has.2 i b hb

end

/-- Decoding a format string gives arguments that fit it. -/
theorem fits_format (t : Table) (fuel : Nat) : ∀ f, Always (decodeFormat t fuel f) (fun as => Fits (.format f as) .format) := by
  induction fuel with
  | zero => intro f bs a r h; cases h
  | succ fuel ih =>
    intro f
    unfold Decoder.decodeFormat
    split
    · intro bs a r h; cases h
    · exact Always.fail _
    · rename_i fs hp
      intro bs as r h
      obtain ⟨hlen, hfit⟩ := fits_params ih _ _ bs as r h
      obtain ⟨⟨n, hd⟩, hc⟩ := C12_indices_dense_types_consistent _ _ _ hp
      have hpt := prepare_types hd hc
      have hn : as.length = n := by
        have := congrArg List.length hpt
        simp only [List.length_map, List.length_range] at this
        omega
      refine .format hp ?_ ?_
      · intro i
        rw [hn]
        exact ⟨fun h => hd.2 i h, fun ⟨p, hp, hpi⟩ => hpi ▸ hd.1 p hp⟩
      · intro p hpm a ha
        obtain ⟨q, hq, hqf⟩ := hfit _ _ ha
        have h1 := congrArg (fun l => l[p.index]?) hpt
        simp only [List.getElem?_map, hq, Option.map_some] at h1
        have hlt := hd.1 p hpm
        rw [List.getElem?_eq_getElem (by simpa using hlt)] at h1
        simp only [List.getElem_range, Option.map_some, Option.some.injEq] at h1
        unfold tyAt at h1
        cases hfst : firstAt p.index (params fs) with
        | none => rw [hfst] at h1; cases h1
        | some w =>
          rw [hfst] at h1
          have hw : w ∈ params fs := List.mem_of_find?_eq_some hfst
          have hwi : w.index = p.index := by simpa using List.find?_some hfst
          simp only at h1
          rcases hc w hw p hpm hwi with he | ⟨s, e, s', e', he, he'⟩
          · split at h1
            · rename_i s e hs
              rw [Eq.comm, Option.map_eq_some_iff] at h1
              obtain ⟨r, _, hr⟩ := h1
              rw [← hr] at hqf
              rw [← he, hs]
              cases hqf with
              | bits => exact .bits
              | unsigned hm => simp [unsignedTypes] at hm
              | signed hm => simp [signedTys] at hm
              | formatSlice hm => simp at hm
            · have hty : q.ty = w.ty := by simpa using h1
              rw [← he, ← hty]; exact hqf
          · rw [he] at h1
            simp only at h1
            rw [Eq.comm, Option.map_eq_some_iff] at h1
            obtain ⟨r, _, hr⟩ := h1
            rw [← hr] at hqf
            rw [he']
            cases hqf with
            | bits => exact .bits
            | unsigned hm => simp [unsignedTypes] at hm
            | signed hm => simp [signedTys] at hm
            | formatSlice hm => simp at hm

end Defmt.Display
