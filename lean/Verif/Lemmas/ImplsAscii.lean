import Verif.Spec.ImplsAscii
import Verif.Lemmas.Impls
/-!
# The provided `Format` implementations with the hint `a`
-/

namespace Defmt.Impls

open Parser hiding Written
open Decoder Encoder Display

/-- what is shown for a value with the hint `a`, and whether it counts as a byte in a list -/
def Asc (addr : List Char → Nat) (env : Env) (v : Value) : Prop :=
  ∃ f as, denote (toVal addr v) = .format f as ∧
    formatArgs f (showArgs env as) (some .ascii) = some (v.ascii env) ∧
    match v.byte? with
    | some b => f = c!"{=u8}" ∧ as = [.uxx b.toNat]
    | none => f ≠ c!"{=u8}"

section
variable {t : Table} {addr : List Char → Nat} {env : Env}

theorem leaf_ascii (env : Env) (p : Prim) : leaf env (some .ascii) p = some (p.text env id) := by
  cases p <;>
    simp [leaf, Prim.arg, Prim.ty, Prim.text, showArg, formatUxx, formatU128, formatI128, formatStr, none_hint, digits, intText] <;>
    split <;> simp_all

/-- in a parameter of a format string, whatever its hint -/
theorem asc_shown {v : Value} (g : Asc addr env v) (p : Parameter) :
    showArg env (denote (toVal addr v)) p (some .ascii) = some (v.ascii env) := by
  obtain ⟨f, as, e, hs, _⟩ := g
  rw [e, showArg]
  simp only [if_pos]
  exact hs

theorem asciis_map (env : Env) : ∀ vs, asciis env vs = vs.map (Value.ascii env)
  | [] => by rw [asciis]; rfl
  | v :: vs => by rw [asciis, asciis_map env vs]; rfl

theorem asc_formatted {v : Value} {tag : Nat} {fmt : List Char} {args : List Val} {tys : List Ty}
    (h1 : toVal addr v = .formatted tag fmt args) (h4 : argTypes fmt args.length = some tys) (hb : v.byte? = none)
    (hf : fmt ≠ c!"{=u8}")
    (h9 : formatArgs fmt (showArgs env (denoteArgs tys args)) (some .ascii) = some (v.ascii env)) : Asc addr env v :=
  ⟨fmt, denoteArgs tys args, by rw [h1, denote, h4], h9, by rw [hb]; exact hf⟩

theorem asc_variant {v : Value} {tag : Nat} {fs : List (List Char)} {fmt : List Char} {i : Nat} {args : List Val} {tys : List Ty}
    (h1 : toVal addr v = .variant tag fs i args) (hi : fs[i]? = some fmt) (h4 : argTypes fmt args.length = some tys)
    (hb : v.byte? = none) (hf : fmt ≠ c!"{=u8}")
    (h9 : formatArgs fmt (showArgs env (denoteArgs tys args)) (some .ascii) = some (v.ascii env)) : Asc addr env v :=
  ⟨fmt, denoteArgs tys args, by rw [h1, denote, hi]; simp only [h4], h9, by rw [hb]; exact hf⟩

theorem sequence_ne : sequenceFormat ≠ c!"{=u8}" := by decide

theorem asc_manual {v : Value} {tag tag' : Nat} {fmt : List Char} {args : List Val} {tys : List Ty}
    (h1 : toVal addr v = .manual tag [.formatted tag' fmt args]) (h4 : argTypes fmt args.length = some tys) (hb : v.byte? = none)
    (h9 : formatArgs fmt (showArgs env (denoteArgs tys args)) (some .ascii) = some (v.ascii env)) : Asc addr env v :=
  ⟨sequenceFormat, _, by rw [h1, denote], by
    apply manual_shown
    rw [denoteAll, denoteAll, denote, h4]
    simp only
    rw [write_shown, h9], by rw [hb]; exact sequence_ne⟩

theorem wrapped_ascii {fmt a b : List Char} {v : Value} (g : Good t addr env v) (g' : Asc addr env v)
    (hp : parse fmt .forwardsCompatible = .ok [.literal a, .param ⟨0, .format, none⟩, .literal b]) :
    formatArgs fmt (showArgs env (denoteArgs [.format] [toVal addr v])) (some .ascii) = some (a ++ v.ascii env ++ b) := by
  unfold formatArgs
  rw [hp, denoteArgs_one, good_denote g _ rfl]
  simp only [List.map, formatFragment, showArgs, List.getElem?_cons_zero]
  rw [asc_shown g']
  simp [concat]

theorem kind_ascii {k : Kind} {vs : List Value} (hl : vs.length = k.arity) (hg : ∀ v ∈ vs, Asc addr env v) :
    formatArgs k.fmt (showArgs env (vs.map (fun v => denote (toVal addr v)))) (some .ascii) = some (k.text c!")" (asciis env vs)) := by
  have key : ∀ v ∈ vs, ∀ p, showArg env (denote (toVal addr v)) p (some .ascii) = some (v.ascii env) :=
    fun v hv p => asc_shown (hg v hv) p
  unfold formatArgs
  rw [(kind_ok k).1, asciis_map]
  match vs, hl, key with
  | [], hl, _ =>
    cases k <;> first | (cases hl; done) | simp [Kind.frags, formatFragment, concat, Kind.text]
  | [a], hl, key =>
    have ka := key a (by simp)
    cases k <;> first | (cases hl; done) | exact absurd rfl hk | skip
    all_goals
      simp only [Kind.frags, List.map, formatFragment, showArgs, List.getElem?_cons_zero, ka]
      simp [concat, Kind.text]
  | [a, b], hl, key =>
    have ka := key a (by simp)
    have kb := key b (by simp)
    cases k <;> first | (cases hl; done) | skip
    all_goals
      simp only [Kind.frags, List.map, formatFragment, showArgs, List.getElem?_cons_zero, List.getElem?_cons_succ, ka, kb]
      simp [concat, Kind.text]
  | [a, b, c], hl, key => cases k <;> cases hl
  | [a, b, c, d], hl, key =>
    have ka := key a (by simp)
    have kb := key b (by simp)
    have kc := key c (by simp)
    have kd := key d (by simp)
    cases k <;> first | (cases hl; done) | skip
    all_goals
      simp only [Kind.frags, List.map, formatFragment, showArgs, List.getElem?_cons_zero, List.getElem?_cons_succ, ka, kb, kc, kd]
      simp [concat, Kind.text]
  | a :: b :: c :: d :: e :: vs, hl, key => cases k <;> simp [Kind.arity] at hl

theorem tuple_ascii {vs : List Value} (h1 : 1 ≤ vs.length) (h12 : vs.length ≤ 12) (hg : ∀ v ∈ vs, Asc addr env v) :
    formatArgs (tupleFmt vs.length) (showArgs env (vs.map (fun v => denote (toVal addr v)))) (some .ascii) =
      some ('(' :: separated c!", " (asciis env vs) ++ [')']) := by
  obtain ⟨n, hn⟩ : ∃ n, vs.length = n + 1 := ⟨vs.length - 1, by omega⟩
  have hfrag : ∀ i (hi : i < vs.length), formatFragment (showArgs env (vs.map (fun v => denote (toVal addr v)))) (some .ascii)
      (.param ⟨i, .format, none⟩) = some (vs[i].ascii env) := by
    intro i hi
    simp only [formatFragment, showArgs_map, List.map_map, List.getElem?_map, List.getElem?_eq_getElem hi, Option.map_some,
      Function.comp]
    exact asc_shown (hg _ (by simp)) _
  unfold formatArgs
  rw [hn, (tuple_ok n (by omega)).1, asciis_map]
  simp only [List.map_cons]
  rw [hfrag 0 (by omega)]
  have := tuple_rest_shown (showArgs env (vs.map (fun v => denote (toVal addr v)))) (some .ascii) n 1
    ((vs.map (Value.ascii env)).tail) (by simp [hn]) (by
      intro j hj
      simp only [List.length_tail, List.length_map] at hj
      rw [show 1 + j = j + 1 by omega, hfrag (j + 1) (by omega)]
      simp)
  simp only [formatFragment, concat]
  rw [this]
  clear this hfrag hg
  cases vs with
  | nil => simp at hn
  | cons v vs => simp [separated_flatten]

theorem asc_byte {v : Value} (g : Asc addr env v) : isU8Element (denote (toVal addr v)) = v.byte?.isSome ∧
    ∀ b, v.byte? = some b → elementByte (denote (toVal addr v)) = some b := by
  obtain ⟨f, as, e, _, hb⟩ := g
  rw [e]
  cases h : v.byte? with
  | none => rw [h] at hb; exact ⟨by simp only [isU8Element, decide_eq_false_iff_not, Option.isSome_none]; exact hb, by simp⟩
  | some b =>
    rw [h] at hb
    obtain ⟨rfl, rfl⟩ := hb
    refine ⟨by simp [isU8Element], ?_⟩
    rintro b' hb'
    cases hb'
    simp [elementByte, b.toNat_lt]

theorem allBytes_bytes : ∀ {vs : List Value} {bs : List UInt8}, (∀ v ∈ vs, Asc addr env v) → bytes? vs = some bs →
    allBytes (vs.map (fun v => denote (toVal addr v))) = some bs
  | [], bs, _, h => by simpa [bytes?, allBytes] using h
  | v :: vs, bs, hg, h => by
    rw [bytes?] at h
    cases hv : v.byte? with
    | none => simp [hv] at h
    | some b =>
      cases hvs : bytes? vs with
      | none => simp [hv, hvs] at h
      | some bs' =>
        simp only [hv, hvs, Option.some.injEq] at h
        rw [List.map_cons, allBytes, (asc_byte (hg v (by simp))).2 b hv, allBytes_bytes (fun v hv => hg v (by simp [hv])) hvs]
        simp [h]

theorem showElements_ascii : ∀ {vs : List Value}, (∀ v ∈ vs, Asc addr env v) →
    (showElements env (vs.map (fun v => denote (toVal addr v)))).map (fun s => s (some .ascii)) = (vs.map (Value.ascii env)).map some
  | [], _ => rfl
  | v :: vs, hg => by
    obtain ⟨f, as, e, hs, _⟩ := hg v (by simp)
    rw [List.map_cons, e, showElements]
    simp only [List.map_cons]
    rw [hs, showElements_ascii (fun v hv => hg v (by simp [hv]))]

/-- all elements of a list have the same type -/
theorem same_byte {vs : List Value} (h : ∀ v ∈ vs, ∀ w ∈ vs, v.byte?.isSome = w.byte?.isSome) :
    (∃ bs, bytes? vs = some bs) ∨ ∀ v ∈ vs, v.byte? = none := by
  by_cases hn : ∀ v ∈ vs, v.byte? = none
  · exact .inr hn
  · obtain ⟨w, hn'⟩ := Classical.not_forall.mp hn
    obtain ⟨hw, hb⟩ := Classical.not_imp.mp hn'
    have hall : ∀ v ∈ vs, v.byte?.isSome = true := by
      intro v hv
      rw [h v hv w hw]
      cases hwb : w.byte? with
      | none => exact absurd hwb hb
      | some b => rfl
    left
    clear hw hb h hn hn'
    induction vs with
    | nil => exact ⟨[], rfl⟩
    | cons v vs ih =>
      obtain ⟨bs, hbs⟩ := ih (fun v hv => hall v (by simp [hv]))
      have := hall v (by simp)
      cases hv : v.byte? with
      | none => simp [hv] at this
      | some b => exact ⟨b :: bs, by simp [bytes?, hv, hbs]⟩

theorem list_ascii {vs : List Value} (hg : ∀ v ∈ vs, Asc addr env v)
    (hs : ∀ v ∈ vs, ∀ w ∈ vs, v.byte?.isSome = w.byte?.isSome) (i : Nat) (ty : Ty) :
    showArg env (.formatSlice (vs.map (fun v => denote (toVal addr v)))) ⟨i, ty, none⟩ (some .ascii) =
      some (listAscii vs (asciis env vs)) := by
  rw [showArg, asciis_map]
  simp only [none_hint, true_and]
  have hany : (vs.map (fun v => denote (toVal addr v))).any isU8Element = vs.any (fun v => v.byte?.isSome) := by
    rw [List.any_map]
    rw [Bool.eq_iff_iff]
    simp only [List.any_eq_true, Function.comp]
    constructor
    · rintro ⟨v, hv, h⟩; exact ⟨v, hv, by rw [(asc_byte (hg v hv)).1] at h; exact h⟩
    · rintro ⟨v, hv, h⟩; exact ⟨v, hv, by rw [(asc_byte (hg v hv)).1]; exact h⟩
  have hbr : bracketed ((showElements env (vs.map (fun v => denote (toVal addr v)))).map (fun s => s (some .ascii))) =
      some ('[' :: separated c!", " (vs.map (Value.ascii env)) ++ [']']) := by
    rw [showElements_ascii hg]
    exact bracketed_iff.mpr ⟨_, rfl, rfl⟩
  rw [hany, hbr]
  match vs, hs, hg with
  | [], _, _ => simp [listAscii, bytes?]
  | v :: vs, hs, hg =>
    rcases same_byte hs with ⟨bs, hbs⟩ | hn
    · rw [allBytes_bytes hg hbs]
      have hv : v.byte?.isSome = true := by
        rw [bytes?] at hbs
        cases h : v.byte? with
        | none => simp [h] at hbs
        | some b => rfl
      rw [if_pos (by simp [hv])]
      simp only [listAscii, hbs, formatBytes]
      cases bs with
      | nil =>
        rw [bytes?] at hbs
        split at hbs <;> simp at hbs
      | cons b bs => rfl
    · have h0 : bytes? (v :: vs) = none := by rw [bytes?, hn v (by simp)]
      rw [if_neg (by
        simp only [List.any_eq_true, not_exists, not_and]
        intro w hw; rw [hn w hw]; simp)]
      simp only [listAscii, h0]

/-- a type is that of bytes or not: the format string tells -/
theorem tag_byte : ∀ {v : Value}, v.Ok → (v.byte?.isSome = true ↔ v.tag = c!"{=u8}")
  | .prim p, _ => by cases p <;> simp [Value.byte?, Value.tag, Prim.fmt]
  | .reference v, ho => by
    rw [Value.Ok] at ho
    rw [Value.byte?, Value.tag]; exact tag_byte ho
  | .unit, _ => by simp [Value.byte?, Value.tag]
  | .phantom, _ => by simp [Value.byte?, Value.tag]
  | .tuple vs, ho => by
    rw [Value.Ok] at ho
    have : ∀ n < 13, tupleFmt n ≠ c!"{=u8}" := by decide +kernel
    simp [Value.byte?, Value.tag, this vs.length (by omega)]
  | .none, _ => by simp [Value.byte?, Value.tag]
  | .some v, _ => by simp [Value.byte?, Value.tag]
  | .err v, _ => by simp [Value.byte?, Value.tag]
  | .ok v, _ => by simp [Value.byte?, Value.tag]
  | .borrowed, _ => by simp [Value.byte?, Value.tag]
  | .refCell v, _ => by simp [Value.byte?, Value.tag]
  | .slice tag vs, _ => by simp [Value.byte?, Value.tag]
  | .array tag vs, _ => by
    obtain ⟨ty, hty, p1, _⟩ := array_ok vs.length
    have : arrayFmt vs.length ≠ c!"{=u8}" := by
      intro h
      rw [h, show c!"{=u8}" = (Prim.u8 0).fmt from rfl, (prim_ok (.u8 0)).1] at p1
      rcases hty with ⟨rfl, _⟩ | ⟨rfl, _⟩ <;> simp [Prim.ty] at p1
    simp [Value.byte?, Value.tag, this]
  | .nonZero p, _ => by simp [Value.byte?, Value.tag, manualFmt]
  | .duration _ _, _ => by simp [Value.byte?, Value.tag, manualFmt]
  | .location _ _ _, _ => by simp [Value.byte?, Value.tag, manualFmt]
  | .ipv6 _, _ => by simp [Value.byte?, Value.tag, manualFmt]
  | .pointer _, _ => by simp [Value.byte?, Value.tag, manualFmt]
  | .iter _ _, _ => by simp [Value.byte?, Value.tag, manualFmt]
  | .written _ _, _ => by simp [Value.byte?, Value.tag, manualFmt]
  | .newtype _, _ => by simp [Value.byte?, Value.tag, manualFmt]

theorem allOk_mem : ∀ {vs : List Value}, AllOk vs → ∀ v ∈ vs, v.Ok
  | [], _ => by simp
  | v :: vs, h => by
    rw [AllOk] at h
    intro x hx
    rcases List.mem_cons.mp hx with rfl | hx
    · exact h.1
    · exact allOk_mem h.2 x hx

theorem list_same {vs : List Value} {s : List Char} (ho : AllOk vs) (hs : ∀ v ∈ vs, v.tag = s) :
    ∀ v ∈ vs, ∀ w ∈ vs, v.byte?.isSome = w.byte?.isSome := by
  intro v hv w hw
  rw [Bool.eq_iff_iff, tag_byte (allOk_mem ho v hv), tag_byte (allOk_mem ho w hw), hs v hv, hs w hw]

theorem octet_ascii (o : UInt8) (p : Parameter) :
    showArg env (denote (octet addr o)) p (some .ascii) = some (Nat.toDigits 10 o.toNat) := by
  have e : denote (octet addr o) = .format c!"{=u8}" [(Prim.u8 o.toNat).arg] := by
    rw [octet, denote, show argTypes c!"{=u8}" [Val.uint 1 o.toNat].length = some [.u8] from (prim_ok (.u8 0)).2.1]; rfl
  rw [e, showArg]
  simp only [if_pos]
  rw [show c!"{=u8}" = (Prim.u8 o.toNat).fmt from rfl, formatArgs_prim, leaf_ascii]
  rfl

theorem pointer_ascii (a : Nat) (p : Parameter) :
    showArg env (denote (.formatted (addr c!"{=usize}") c!"{=usize}" [.usize a])) p (some .ascii) = some (Nat.toDigits 10 a) := by
  have e : denote (.formatted (addr c!"{=usize}") c!"{=usize}" [.usize a]) = .format c!"{=usize}" [(Prim.usize a).arg] := by
    rw [denote, show argTypes c!"{=usize}" [Val.usize a].length = some [.usize] from (prim_ok (.usize 0)).2.1]; rfl
  rw [e, showArg]
  simp only [if_pos]
  rw [show c!"{=usize}" = (Prim.usize a).fmt from rfl, formatArgs_prim, leaf_ascii]
  rfl

theorem ipv6_ascii {os : List UInt8} (hl : os.length = 16) :
    formatArgs ipv6Fmt (showArgs env (os.map (fun o => denote (octet addr o)))) (some .ascii) = some (ipv6Decimal os) := by
  match os, hl with
  | [a0, a1, a2, a3, a4, a5, a6, a7, a8, a9, a10, a11, a12, a13, a14, a15], _ =>
    unfold formatArgs
    rw [ipv6_ok.1]
    simp only [List.map, formatFragment, showArgs, List.getElem?_cons_zero, List.getElem?_cons_succ, octet_ascii]
    simp [concat, ipv6Decimal]

mutual

theorem asc (hw : 2 ≤ env.maxWidth) : ∀ {v : Value}, v.Ok → (∀ s ∈ v.uses, Interned t addr s) → Asc addr env v
  | .prim p, ho, hu => by
    rw [Value.Ok] at ho
    obtain ⟨h1, h2, h3⟩ := prim_ok p
    refine ⟨p.fmt, [p.arg], ?_, ?_, ?_⟩
    · rw [toVal, denote, show [p.val addr].length = 1 from rfl, h2]
      simp only [denoteArgs_one, prim_denote]
    · rw [formatArgs_prim, leaf_ascii, Value.ascii]
    · cases p <;> simp [Value.byte?, Prim.fmt, Prim.arg]
      simp only [Prim.Ok] at ho
      omega
  | .unit, _, hu => by
    refine asc_formatted (by rw [toVal]) unit_ok.2.1 rfl (by decide) ?_
    rw [Value.ascii]
    simp only [formatArgs, unit_ok.1]
    rfl
  | .phantom, _, hu => by
    refine asc_formatted (by rw [toVal]) phantom_ok.2.1 rfl (by decide) ?_
    rw [Value.ascii]
    simp only [formatArgs, phantom_ok.1]
    rfl
  | .tuple vs, ho, hu => by
    rw [Value.Ok] at ho
    rw [Value.uses] at hu
    have hg := good_all (env := env) hw ho.2.2 (fun s hs => hu s (by simp [hs]))
    have ha := asc_all hw ho.2.2 (fun s hs => hu s (by simp [hs]))
    obtain ⟨_, _, a4⟩ := args_good hg
    obtain ⟨n, hn⟩ : ∃ n, vs.length = n + 1 := ⟨vs.length - 1, by omega⟩
    have ht := tuple_ok n (by omega)
    rw [← hn] at ht
    have hne : ∀ n < 13, tupleFmt n ≠ c!"{=u8}" := by decide +kernel
    refine asc_formatted (by rw [toVal]) (by rw [toVals_length]; exact ht.2.1) rfl (hne _ (by omega)) ?_
    rw [a4, Value.ascii]
    exact tuple_ascii ho.1 ho.2.1 ha
  | .none, _, hu => by
    refine asc_variant (by rw [toVal]) rfl none_ok.2 rfl (by decide) ?_
    rw [Value.ascii]
    simp only [formatArgs, none_ok.1]
    rfl
  | .borrowed, _, hu => by
    refine asc_variant (by rw [toVal]) rfl borrowed_ok.2 rfl (by decide) ?_
    rw [Value.ascii]
    simp only [formatArgs, borrowed_ok.1]
    rfl
  | .some v, ho, hu => by
    rw [Value.Ok] at ho
    rw [Value.uses] at hu
    have g := good (env := env) hw ho (fun s hs => hu s (by simp [hs]))
    refine asc_variant (by rw [toVal]) rfl some_ok.2 rfl (by decide) ?_
    rw [Value.ascii]
    exact wrapped_ascii g (asc hw ho (fun s hs => hu s (by simp [hs]))) some_ok.1
  | .err v, ho, hu => by
    rw [Value.Ok] at ho
    rw [Value.uses] at hu
    have g := good (env := env) hw ho (fun s hs => hu s (by simp [hs]))
    refine asc_variant (by rw [toVal]) rfl err_ok.2 rfl (by decide) ?_
    rw [Value.ascii]
    exact wrapped_ascii g (asc hw ho (fun s hs => hu s (by simp [hs]))) err_ok.1
  | .ok v, ho, hu => by
    rw [Value.Ok] at ho
    rw [Value.uses] at hu
    have g := good (env := env) hw ho (fun s hs => hu s (by simp [hs]))
    refine asc_variant (by rw [toVal]) rfl ok_ok.2 rfl (by decide) ?_
    rw [Value.ascii]
    exact wrapped_ascii g (asc hw ho (fun s hs => hu s (by simp [hs]))) ok_ok.1
  | .refCell v, ho, hu => by
    rw [Value.Ok] at ho
    rw [Value.uses] at hu
    have g := good (env := env) hw ho (fun s hs => hu s (by simp [hs]))
    refine asc_variant (by rw [toVal]) rfl refCell_ok.2 rfl (by decide) ?_
    rw [Value.ascii]
    exact wrapped_ascii g (asc hw ho (fun s hs => hu s (by simp [hs]))) refCell_ok.1
  | .slice tag vs, ho, hu => by
    rw [Value.Ok] at ho
    rw [Value.uses] at hu
    obtain ⟨⟨s, rfl, hs⟩, hl, ho⟩ := ho
    have hg := good_all (env := env) hw ho (fun s hs => hu s (by simp [hs]))
    have ha := asc_all hw ho (fun s hs => hu s (by simp [hs]))
    obtain ⟨d, _, _, _, a4⟩ := slice_args (ty := .formatSlice) hg hs hl (hu s (by simp)).2 (.inl rfl)
    refine asc_formatted (args := [.slice (addr s) s (toVals addr vs)]) (by rw [toVal]; rfl) slice_ok.2.1 rfl (by decide) ?_
    rw [a4, Value.ascii]
    exact (formatArgs_one slice_ok.1 rfl _ _).trans (list_ascii ha (list_same ho hs) _ _)
  | .array tag vs, ho, hu => by
    have htag := tag_byte ho
    rw [Value.Ok] at ho
    rw [Value.uses] at hu
    obtain ⟨⟨s, rfl, hs⟩, hl, ho⟩ := ho
    have hg := good_all (env := env) hw ho (fun s hs => hu s (by simp [hs]))
    have ha := asc_all hw ho (fun s hs => hu s (by simp [hs]))
    obtain ⟨ty, hty, p1, p2, p3⟩ := array_ok vs.length
    obtain ⟨d, _, _, _, a4⟩ := slice_args (ty := ty) hg hs hl (hu s (by simp)).2
      (by rcases hty with ⟨h, _⟩ | ⟨h, _⟩; exact .inr h; exact .inl h)
    refine asc_formatted (args := [.slice (addr s) s (toVals addr vs)]) (by rw [toVal]; rfl) p2 rfl (fun h => ?_) ?_
    · exact absurd (htag.mpr h) (by simp [Value.byte?])
    · rw [a4, Value.ascii]
      exact (formatArgs_one p1 rfl _ _).trans (list_ascii ha (list_same ho hs) _ _)
  | .reference v, ho, hu => by
    rw [Value.Ok] at ho
    rw [Value.uses] at hu
    obtain ⟨f, as, s1, s2, s3⟩ := asc hw ho hu
    exact ⟨f, as, by rw [toVal, s1], by rw [s2, Value.ascii], by rw [Value.byte?]; exact s3⟩
  | .nonZero p, ho, hu => by
    obtain ⟨h1, h2, h3⟩ := prim_ok p
    refine asc_manual (by rw [toVal]) h2 rfl ?_
    rw [denoteArgs_one, prim_denote, Value.ascii, formatArgs_prim, leaf_ascii]
  | .duration s n, ho, hu => by
    refine asc_manual (by rw [toVal]) duration_ok.2 rfl ?_
    have e : denoteArgs [.u64, .u32] [.uint 8 s, .uint 4 n] = [(Prim.u64 s).arg, (Prim.u32 n).arg] := rfl
    rw [e, Value.ascii]
    simp only [formatArgs, duration_ok.1, List.map, formatFragment, showArgs, List.getElem?_cons_zero, List.getElem?_cons_succ]
    have l1 := leaf_index env (some .ascii) (.u64 s) 0
    have l2 := leaf_index env (some .ascii) (.u32 n) 1
    simp only [Prim.ty, leaf_ascii] at l1 l2
    rw [l1, l2]
    simp [concat, Prim.text]
  | .location f l c, ho, hu => by
    refine asc_manual (by rw [toVal]) location_ok.2 rfl ?_
    have e : denoteArgs [.str, .u32, .u32] [.str f, .uint 4 l, .uint 4 c] =
      [(Prim.str f).arg, (Prim.u32 l).arg, (Prim.u32 c).arg] := rfl
    rw [e, Value.ascii]
    simp only [formatArgs, location_ok.1, List.map, formatFragment, showArgs, List.getElem?_cons_zero, List.getElem?_cons_succ]
    have l1 := leaf_index env (some .ascii) (.str f) 0
    have l2 := leaf_index env (some .ascii) (.u32 l) 1
    have l3 := leaf_index env (some .ascii) (.u32 c) 2
    simp only [Prim.ty, leaf_ascii] at l1 l2 l3
    rw [l1, l2, l3]
    simp [concat, Prim.text]
  | .ipv6 os, ho, hu => by
    rw [Value.Ok] at ho
    rw [Value.uses] at hu
    obtain ⟨_, _, a3⟩ := octets_args (t := t) (addr := addr) (hu _ (by simp)) os
    rw [ho] at a3
    refine asc_manual (tys := List.replicate 16 .format) (by rw [toVal]) (by rw [List.length_map, ho]; exact ipv6_ok.2) rfl ?_
    rw [a3, Value.ascii]
    exact ipv6_ascii ho
  | .pointer a, ho, hu => by
    refine asc_manual (by rw [toVal]) pointer_ok.2 rfl ?_
    rw [denoteArgs_one, Value.ascii]
    simp only [denoteArg, formatArgs, pointer_ok.1, List.map, formatFragment, showArgs, List.getElem?_cons_zero]
    rw [pointer_ascii]
    simp [concat]
  | .iter tag vs, ho, hu => by
    rw [Value.Ok] at ho
    rw [Value.uses] at hu
    obtain ⟨⟨s, rfl, hs⟩, hl, ho⟩ := ho
    have hg := good_all (env := env) hw ho (fun s hs => hu s (by simp [hs]))
    have ha := asc_all hw ho (fun s hs => hu s (by simp [hs]))
    obtain ⟨d, _, _, _, a4⟩ := slice_args (ty := .formatSlice) hg hs hl (hu s (by simp)).2 (.inl rfl)
    refine asc_manual (args := [.slice (addr s) s (toVals addr vs)]) (by rw [toVal]; rfl) iter_ok.2 rfl ?_
    rw [a4, Value.ascii]
    simp only [formatArgs, iter_ok.1, List.map, formatFragment, showArgs, List.getElem?_cons_zero]
    rw [list_ascii ha (list_same ho hs)]
    simp [concat]
  | .written k vs, ho, hu => by
    rw [Value.Ok] at ho
    rw [Value.uses] at hu
    have hg := good_all (env := env) hw ho.2 (fun s hs => hu s (by simp [hs]))
    have ha := asc_all hw ho.2 (fun s hs => hu s (by simp [hs]))
    obtain ⟨_, _, a4⟩ := args_good hg
    refine asc_manual (tys := List.replicate vs.length .format) (by rw [toVal])
      (by rw [toVals_length, ho.1]; exact (kind_ok k).2) rfl ?_
    rw [a4, Value.ascii]
    exact kind_ascii ho.1 ha
  | .newtype v, ho, hu => by
    rw [Value.Ok] at ho
    rw [Value.uses] at hu
    have g := good (env := env) hw ho.2 (fun s hs => hu s (by simp [hs]))
    obtain ⟨f, as, s1, s2, _⟩ := asc hw ho.2 (fun s hs => hu s (by simp [hs]))
    have hb : (Value.newtype v).byte? = none := rfl
    cases hm : v.isManual with
    | true =>
      obtain ⟨m1, ws, m2, m3⟩ := g.manual hm
      have e : toVal addr (.newtype v) = toVal addr v := by rw [toVal, m2]; rfl
      refine ⟨f, as, by rw [e, s1], by rw [s2, Value.ascii], ?_⟩
      rw [hb]
      rw [m2, denote] at s1
      cases s1
      exact sequence_ne
    | false =>
      obtain ⟨p1, args, p2⟩ := g.plain hm ho.1
      have e : toVal addr (.newtype v) = .manual (addr manualFmt) [toVal addr v] := by rw [toVal, p2]; rfl
      refine ⟨sequenceFormat, _, by rw [e, denote], ?_, by rw [hb]; exact sequence_ne⟩
      apply manual_shown
      rw [denoteAll, denoteAll, s1, write_shown, s2, Value.ascii]

theorem asc_all (hw : 2 ≤ env.maxWidth) : ∀ {vs : List Value}, AllOk vs → (∀ s ∈ allUses vs, Interned t addr s) →
    ∀ v ∈ vs, Asc addr env v
  | [], _, _ => by simp
  | v :: vs, ho, hu => by
    rw [AllOk] at ho
    rw [allUses] at hu
    have g := asc hw ho.1 (fun s hs => hu s (by simp [hs]))
    have gs := asc_all hw ho.2 (fun s hs => hu s (by simp [hs]))
    intro x hx
    rcases List.mem_cons.mp hx with rfl | hx
    · exact g
    · exact gs x hx

end

end

end Defmt.Impls
