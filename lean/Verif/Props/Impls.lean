import Verif.Lemmas.Impls
import Verif.Props.RoundTrip
import Verif.Props.Display
/-!
# Properties of the provided `Format` implementations (C81 to C84)
-/

namespace Defmt

open Parser hiding Written
open Decoder Encoder Display Impls

/-- logging one value with `fmt`, whose only parameter has type `?` -/
theorem impls_log {t : Table} {addr : List Char → Nat} {env : Env} (hw : 2 ≤ env.maxWidth) {v : Value} (ho : v.Ok)
    (hu : ∀ s ∈ v.uses, Interned t addr s) {fmt : List Char} {hint : Option Hint} (hh : hint ≠ some .ascii)
    (hp : parse fmt .forwardsCompatible = .ok [.param ⟨0, .format, hint⟩]) (ha : argTypes fmt 1 = some [.format])
    {ts : Option Call} {sent : List UInt8} (hts : Stamped t ts sent)
    {index : Nat} (hi : index < 2 ^ 16) {stmt : Tag} (hx : t.entries index = some ⟨stmt, fmt⟩) :
    ∃ bytes, encode addr v = some bytes ∧ ∀ rest, ∃ f : Frame,
      t.decode (le 2 index ++ sent ++ bytes ++ rest) = some (.ok (f, 2 + sent.length + bytes.length)) ∧
      f.index = index ∧ f.level = stmt.toLevel ∧ f.message env = v.text c!")" (leaf env hint) := by
  have g : Good t addr env v := good hw ho hu
  obtain ⟨c, c1, c2⟩ := good_arg g
  have hd := log_stamped hts hi (c := ⟨fmt, [toVal addr v]⟩) hx ⟨[.format], ha, by rw [ArgsOk, ArgsOk]; exact ⟨good_argOk g, trivial⟩⟩
    (d := fmtOf addr v c) (by simp [Call.encode, ha, encodeArgs, c2])
  refine ⟨fmtOf addr v c, by rw [encode, c1]; rfl, fun rest => ⟨_, hd rest, rfl, rfl, ?_⟩⟩
  · show formatArgs fmt (showArgs env (Call.denote ⟨fmt, [toVal addr v]⟩)) none = _
    simp only [Call.denote, List.length_singleton, ha]
    rw [denoteArgs_one, good_denote g _ rfl, formatArgs_one hp rfl, good_shown g hh (by simp)]
    cases hint <;> rfl

/-! ### C81 -/

/-- The parameters that show a value: with `{}` strings are shown as they are, with `{:?}` in the way
Rust's `Debug` shows them. -/
def showing (env : Env) : List (List Char × (List Char → List Char)) :=
  [(c!"{}", id), (c!"{=?}", id), (c!"{:?}", env.debugStr), (c!"{=?:?}", env.debugStr)]

theorem leaf_plain (env : Env) (p : Prim) :
    leaf env none p = some (p.text env id) ∧ leaf env (some .debug) p = some (p.text env env.debugStr) := by
  constructor <;> cases p <;>
    simp [leaf, Prim.arg, Prim.ty, Prim.text, showArg, formatUxx, formatU128, formatI128, formatStr, none_hint, digits, intText] <;>
    split <;> simp_all

mutual

theorem text_total {cell : List Char} {l : Prim → Option (List Char)} (h : ∀ p, ∃ s, l p = some s) : ∀ v : Value, ∃ m, v.text cell l = some m
  | .prim p => by rw [Value.text]; exact h p
  | .unit => ⟨_, by rw [Value.text]⟩
  | .phantom => ⟨_, by rw [Value.text]⟩
  | .tuple vs => by obtain ⟨ss, hs⟩ := texts_total h vs; exact ⟨_, by rw [Value.text, hs]; rfl⟩
  | .none => ⟨_, by rw [Value.text]⟩
  | .some v => by obtain ⟨s, hs⟩ := text_total h v; exact ⟨_, by rw [Value.text, hs]; rfl⟩
  | .err v => by obtain ⟨s, hs⟩ := text_total h v; exact ⟨_, by rw [Value.text, hs]; rfl⟩
  | .ok v => by obtain ⟨s, hs⟩ := text_total h v; exact ⟨_, by rw [Value.text, hs]; rfl⟩
  | .borrowed => ⟨_, by rw [Value.text]⟩
  | .refCell v => by obtain ⟨s, hs⟩ := text_total h v; exact ⟨_, by rw [Value.text, hs]; rfl⟩
  | .slice _ vs => by obtain ⟨ss, hs⟩ := texts_total h vs; exact ⟨_, by rw [Value.text, hs]; rfl⟩
  | .array _ vs => by obtain ⟨ss, hs⟩ := texts_total h vs; exact ⟨_, by rw [Value.text, hs]; rfl⟩
  | .reference v => by obtain ⟨s, hs⟩ := text_total h v; exact ⟨s, by rw [Value.text, hs]⟩
  | .nonZero p => by rw [Value.text]; exact h p
  | .duration s n => by
    obtain ⟨a, ha⟩ := h (.u64 s); obtain ⟨b, hb⟩ := h (.u32 n)
    exact ⟨_, by rw [Value.text, ha, hb]⟩
  | .location f l c => by
    obtain ⟨a, ha⟩ := h (.str f); obtain ⟨b, hb⟩ := h (.u32 l); obtain ⟨d, hd⟩ := h (.u32 c)
    exact ⟨_, by rw [Value.text, ha, hb, hd]⟩
  | .ipv6 _ => ⟨_, by rw [Value.text]⟩
  | .pointer _ => ⟨_, by rw [Value.text]⟩
  | .iter _ vs => by obtain ⟨ss, hs⟩ := texts_total h vs; exact ⟨_, by rw [Value.text, hs]; rfl⟩
  | .written _ vs => by obtain ⟨ss, hs⟩ := texts_total h vs; exact ⟨_, by rw [Value.text, hs]; rfl⟩
  | .newtype v => by obtain ⟨s, hs⟩ := text_total h v; exact ⟨s, by rw [Value.text, hs]⟩

theorem texts_total {cell : List Char} {l : Prim → Option (List Char)} (h : ∀ p, ∃ s, l p = some s) : ∀ vs : List Value, ∃ ss, texts cell l vs = some ss
  | [] => ⟨[], by rw [texts]⟩
  | v :: vs => by
    obtain ⟨a, ha⟩ := text_total h v; obtain ⟨b, hb⟩ := texts_total h vs
    exact ⟨a :: b, by rw [texts, ha, hb]⟩

end

theorem separated_length (ss : List (List Char)) :
    (separated c!", " ss).length = (ss.map List.length).sum + 2 * (ss.length - 1) := by
  induction ss with
  | nil => rfl
  | cons a ss ih =>
    cases ss with
    | nil => simp [separated]
    | cons b ss =>
      rw [separated, List.length_append, List.length_append, ih]
      simp
      omega
      simp

/-- as many characters more as there are cells -/
theorem kind_cells (cell : List Char) (k : Kind) {as bs : List (List Char)} (hl : as.length = k.arity) (hb : bs.length = as.length)
    {n : Nat} (h : (bs.map List.length).sum = (as.map List.length).sum + n * cell.length) (he : n = 0 → bs = as) :
    (k.text cell bs).length = (k.text [] as).length + (k.cells + n) * cell.length ∧
    (k.cells + n = 0 → k.text cell bs = k.text [] as) := by
  have hc : ∀ x y : Nat, (x + y) * cell.length = x * cell.length + y * cell.length := fun x y => Nat.add_mul ..
  match as, bs, hb with
  | [], [], _ =>
    cases k <;> first | (cases hl; done) | (simp at h; simp [Kind.text, Kind.cells]; try omega)
  | [a], [b], _ =>
    cases k <;> first | (cases hl; done) | skip
    all_goals
      simp at h
      rw [hc]
      refine ⟨by simp [Kind.text, Kind.cells]; omega, ?_⟩
      intro h0
      first
        | (simp [Kind.cells] at h0; done)
        | (rw [he (by simpa [Kind.cells] using h0)]; rfl)
  | [a, a'], [b, b'], _ =>
    cases k <;> first | (cases hl; done) | skip
    all_goals
      simp at h
      rw [hc]
      refine ⟨by simp [Kind.text, Kind.cells]; omega, ?_⟩
      intro h0
      rw [he (by simpa [Kind.cells] using h0)]; rfl
  | [a, a', a2, a3], [b, b', b2, b3], _ =>
    cases k <;> first | (cases hl; done) | skip
    all_goals
      simp at h
      rw [hc]
      refine ⟨by simp [Kind.text, Kind.cells]; omega, ?_⟩
      intro h0
      rw [he (by simpa [Kind.cells] using h0)]; rfl
  | [_, _, _], _, _ => cases k <;> cases hl
  | _ :: _ :: _ :: _ :: _ :: _, _, _ => cases k <;> (simp [Kind.arity] at hl)

/-- `Kind.text` with the text of one part -/
theorem cells_one {cell : List Char} {l : Prim → Option (List Char)} {v w : Value} {f : List Char → List Char} {n : Nat}
    (hf : ∀ s, (f s).length = s.length + n) (hw : ∀ c, w.text c l = (v.text c l).map f) (hc : w.cells = v.cells)
    (h : ∀ a, v.text [] l = some a → ∃ b, v.text cell l = some b ∧ b.length = a.length + v.cells * cell.length ∧ (v.cells = 0 → b = a)) :
    ∀ a, w.text [] l = some a → ∃ b, w.text cell l = some b ∧ b.length = a.length + w.cells * cell.length ∧ (w.cells = 0 → b = a) := by
  intro a ha
  rw [hw, Option.map_eq_some_iff] at ha
  obtain ⟨s, h1, rfl⟩ := ha
  obtain ⟨b, h2, h3, h4⟩ := h s h1
  refine ⟨f b, by rw [hw, h2]; rfl, by rw [hf, hf, h3, hc]; omega, fun h0 => by rw [h4 (hc ▸ h0)]⟩

theorem cells_list {cell : List Char} {l : Prim → Option (List Char)} {vs : List Value} {w : Value} {x y : List Char}
    (hw : ∀ c, w.text c l = (texts c l vs).map (fun ss => x ++ separated c!", " ss ++ y)) (hc : w.cells = allCells vs)
    (h : ∀ as, texts [] l vs = some as → ∃ bs, texts cell l vs = some bs ∧ bs.length = as.length ∧
      (bs.map List.length).sum = (as.map List.length).sum + allCells vs * cell.length ∧ (allCells vs = 0 → bs = as)) :
    ∀ a, w.text [] l = some a → ∃ b, w.text cell l = some b ∧ b.length = a.length + w.cells * cell.length ∧ (w.cells = 0 → b = a) := by
  intro a ha
  rw [hw, Option.map_eq_some_iff] at ha
  obtain ⟨s, h1, rfl⟩ := ha
  obtain ⟨b, h2, h3, h4, h5⟩ := h s h1
  refine ⟨_, by rw [hw, h2]; rfl, ?_, fun h0 => by rw [h5 (hc ▸ h0)]⟩
  simp only [List.length_append, separated_length, h3, h4, hc]
  omega

theorem cells_leaf {cell : List Char} {l : Prim → Option (List Char)} {w : Value}
    (hw : ∀ c c', w.text c l = w.text c' l) (hc : w.cells = 0) :
    ∀ a, w.text [] l = some a → ∃ b, w.text cell l = some b ∧ b.length = a.length + w.cells * cell.length ∧ (w.cells = 0 → b = a) :=
  fun a ha => ⟨a, by rw [← ha]; exact hw _ _, by rw [hc]; omega, fun _ => rfl⟩

theorem texts_length {c : List Char} {l : Prim → Option (List Char)} {vs : List Value} {ss : List (List Char)}
    (h : texts c l vs = some ss) : ss.length = vs.length := by
  have := congrArg List.length ((texts_map c l vs ss).mp h)
  simpa using this.symm

mutual

theorem text_cells (cell : List Char) (l : Prim → Option (List Char)) : ∀ {v : Value}, v.Ok → ∀ a, v.text [] l = some a →
    ∃ b, v.text cell l = some b ∧ b.length = a.length + v.cells * cell.length ∧ (v.cells = 0 → b = a)
  | .prim p, _ => cells_leaf (fun _ _ => by rw [Value.text, Value.text]) (by simp [Value.cells])
  | .unit, _ => cells_leaf (fun _ _ => by rw [Value.text, Value.text]) (by simp [Value.cells])
  | .phantom, _ => cells_leaf (fun _ _ => by rw [Value.text, Value.text]) (by simp [Value.cells])
  | .none, _ => cells_leaf (fun _ _ => by rw [Value.text, Value.text]) (by simp [Value.cells])
  | .borrowed, _ => cells_leaf (fun _ _ => by rw [Value.text, Value.text]) (by simp [Value.cells])
  | .nonZero p, _ => cells_leaf (fun _ _ => by rw [Value.text, Value.text]) (by simp [Value.cells])
  | .duration _ _, _ => cells_leaf (fun _ _ => by rw [Value.text, Value.text]) (by simp [Value.cells])
  | .location _ _ _, _ => cells_leaf (fun _ _ => by rw [Value.text, Value.text]) (by simp [Value.cells])
  | .ipv6 _, _ => cells_leaf (fun _ _ => by rw [Value.text, Value.text]) (by simp [Value.cells])
  | .pointer _, _ => cells_leaf (fun _ _ => by rw [Value.text, Value.text]) (by simp [Value.cells])
  | .some v, ho => by
    rw [Value.Ok] at ho
    exact cells_one (f := fun s => c!"Some(" ++ s ++ c!")") (n := 6) (by intro s; simp) (fun c => by rw [Value.text])
      (by rw [Value.cells]) (text_cells cell l ho)
  | .err v, ho => by
    rw [Value.Ok] at ho
    exact cells_one (f := fun s => c!"Err(" ++ s ++ c!")") (n := 5) (by intro s; simp) (fun c => by rw [Value.text])
      (by rw [Value.cells]) (text_cells cell l ho)
  | .ok v, ho => by
    rw [Value.Ok] at ho
    exact cells_one (f := fun s => c!"Ok(" ++ s ++ c!")") (n := 4) (by intro s; simp) (fun c => by rw [Value.text])
      (by rw [Value.cells]) (text_cells cell l ho)
  | .refCell v, ho => by
    rw [Value.Ok] at ho
    exact cells_one (f := fun s => c!"RefCell { value: " ++ s ++ c!" }") (n := 19) (by intro s; simp)
      (fun c => by rw [Value.text]) (by rw [Value.cells]) (text_cells cell l ho)
  | .reference v, ho => by
    rw [Value.Ok] at ho
    exact cells_one (f := id) (n := 0) (by intro s; simp) (fun c => by rw [Value.text]; simp)
      (by rw [Value.cells]) (text_cells cell l ho)
  | .newtype v, ho => by
    rw [Value.Ok] at ho
    exact cells_one (f := id) (n := 0) (by intro s; simp) (fun c => by rw [Value.text]; simp)
      (by rw [Value.cells]) (text_cells cell l ho.2)
  | .tuple vs, ho => by
    rw [Value.Ok] at ho
    exact cells_list (x := c!"(") (y := c!")") (fun c => by rw [Value.text]; rfl) (by rw [Value.cells]) (texts_cells cell l ho.2.2)
  | .slice _ vs, ho => by
    rw [Value.Ok] at ho
    exact cells_list (x := c!"[") (y := c!"]") (fun c => by rw [Value.text]; rfl) (by rw [Value.cells]) (texts_cells cell l ho.2.2)
  | .array _ vs, ho => by
    rw [Value.Ok] at ho
    exact cells_list (x := c!"[") (y := c!"]") (fun c => by rw [Value.text]; rfl) (by rw [Value.cells]) (texts_cells cell l ho.2.2)
  | .iter _ vs, ho => by
    rw [Value.Ok] at ho
    exact cells_list (x := c!"Iter { slice: [") (y := c!"], position: ? }") (fun c => by rw [Value.text]) (by rw [Value.cells])
      (texts_cells cell l ho.2.2)
  | .written k vs, ho => by
    rw [Value.Ok] at ho
    intro a ha
    rw [Value.text, Option.map_eq_some_iff] at ha
    obtain ⟨s, h1, rfl⟩ := ha
    obtain ⟨b, h2, h3, h4, h5⟩ := texts_cells cell l ho.2 s h1
    have := kind_cells cell k ((texts_length h1).trans ho.1) h3 h4 h5
    exact ⟨_, by rw [Value.text, h2]; rfl, by rw [Value.cells]; exact this.1, by rw [Value.cells]; exact this.2⟩

theorem texts_cells (cell : List Char) (l : Prim → Option (List Char)) : ∀ {vs : List Value}, AllOk vs → ∀ as, texts [] l vs = some as →
    ∃ bs, texts cell l vs = some bs ∧ bs.length = as.length ∧
      (bs.map List.length).sum = (as.map List.length).sum + allCells vs * cell.length ∧ (allCells vs = 0 → bs = as)
  | [], _, as, h => by
    rw [texts, Option.some.injEq] at h
    subst h
    exact ⟨[], by rw [texts], rfl, by simp [allCells], fun _ => rfl⟩
  | v :: vs, ho, as, h => by
    rw [AllOk] at ho
    rw [texts] at h
    cases h1 : v.text [] l with
    | none => rw [h1] at h; cases h
    | some a =>
      cases h2 : texts [] l vs with
      | none => rw [h1, h2] at h; cases h
      | some r =>
        rw [h1, h2] at h
        obtain rfl := Option.some.inj h
        obtain ⟨b, b1, b2, b3⟩ := text_cells cell l ho.1 a h1
        obtain ⟨bs, c1, c2, c3, c4⟩ := texts_cells cell l ho.2 r h2
        refine ⟨b :: bs, by rw [texts, b1, c1], by simp [c2], ?_, ?_⟩
        · rw [allCells, Nat.add_mul]
          simp only [List.map_cons, List.sum_cons, b2, c3]
          omega
        · intro h0
          rw [allCells] at h0
          rw [b3 (by omega), c4 (by omega)]

end

/-- **C81** (exactly what is shown) A value of a provided type, of any nesting, logged with `{}` or `{:?}`: the
target sends its bytes without panicking, and the host shows the text of the value (`Value.text`), with a
parenthesis too many after each `Cell` in it. See C82 and C84 for the restrictions in `Value.Ok`. -/
theorem C81_exact (t : Table) (addr : List Char → Nat) (env : Env) (hw : 2 ≤ env.maxWidth) (v : Value) (ho : v.Ok)
    (hu : ∀ s ∈ v.uses, Interned t addr s) (fmt : List Char) (quote : List Char → List Char) (hf : (fmt, quote) ∈ showing env)
    (ts : Option Call) (sent : List UInt8) (hts : Stamped t ts sent)
    (index : Nat) (hi : index < 2 ^ 16) (stmt : Tag) (hx : t.entries index = some ⟨stmt, fmt⟩) :
    ∃ bytes m, encode addr v = some bytes ∧ v.text c!")" (fun p => some (p.text env quote)) = some m ∧
      ∀ rest, ∃ f : Frame, t.decode (le 2 index ++ sent ++ bytes ++ rest) = some (.ok (f, 2 + sent.length + bytes.length)) ∧
        f.index = index ∧ f.level = stmt.toLevel ∧ f.message env = some m := by
  obtain ⟨m, hm⟩ := text_total (l := fun p => some (p.text env quote)) (fun p => ⟨_, rfl⟩) v
  have key : ∀ hint, hint ≠ some .ascii → (∀ p, leaf env hint p = some (p.text env quote)) →
      parse fmt .forwardsCompatible = .ok [.param ⟨0, .format, hint⟩] → argTypes fmt 1 = some [.format] →
      ∃ bytes m, encode addr v = some bytes ∧ v.text c!")" (fun p => some (p.text env quote)) = some m ∧
      ∀ rest, ∃ f : Frame, t.decode (le 2 index ++ sent ++ bytes ++ rest) = some (.ok (f, 2 + sent.length + bytes.length)) ∧
        f.index = index ∧ f.level = stmt.toLevel ∧ f.message env = some m := by
    intro hint h1 h2 h3 h4
    obtain ⟨bytes, b1, b2⟩ := impls_log hw ho hu h1 h3 h4 hts hi hx
    refine ⟨bytes, m, b1, hm, fun rest => ?_⟩
    obtain ⟨f, f1, f2, f3, f4⟩ := b2 rest
    refine ⟨f, f1, f2, f3, ?_⟩
    rw [f4, ← hm, show leaf env hint = fun p => some (p.text env quote) from funext h2]
  simp only [showing, List.mem_cons, Prod.mk.injEq, List.not_mem_nil, or_false] at hf
  rcases hf with ⟨rfl, rfl⟩ | ⟨rfl, rfl⟩ | ⟨rfl, rfl⟩ | ⟨rfl, rfl⟩
  · exact key none (by simp) (fun p => (leaf_plain env p).1) (by decide +kernel) (by decide +kernel)
  · exact key none (by simp) (fun p => (leaf_plain env p).1) (by decide +kernel) (by decide +kernel)
  · exact key (some .debug) (by simp) (fun p => (leaf_plain env p).2) (by decide +kernel) (by decide +kernel)
  · exact key (some .debug) (by simp) (fun p => (leaf_plain env p).2) (by decide +kernel) (by decide +kernel)

/-- **C81** (partial) A value of a provided type, of any nesting, logged with `{}` or `{:?}`: the target
sends its bytes without panicking, and the host shows the text of the value. Missing: values with a `Cell` in
them (`C81_cells`). -/
theorem C81_shown_partial (t : Table) (addr : List Char → Nat) (env : Env) (hw : 2 ≤ env.maxWidth) (v : Value) (ho : v.Ok)
    (hc : v.cells = 0)
    (hu : ∀ s ∈ v.uses, Interned t addr s) (fmt : List Char) (quote : List Char → List Char) (hf : (fmt, quote) ∈ showing env)
    (ts : Option Call) (sent : List UInt8) (hts : Stamped t ts sent)
    (index : Nat) (hi : index < 2 ^ 16) (stmt : Tag) (hx : t.entries index = some ⟨stmt, fmt⟩) :
    ∃ bytes m, encode addr v = some bytes ∧ v.text [] (fun p => some (p.text env quote)) = some m ∧
      ∀ rest, ∃ f : Frame, t.decode (le 2 index ++ sent ++ bytes ++ rest) = some (.ok (f, 2 + sent.length + bytes.length)) ∧
        f.index = index ∧ f.level = stmt.toLevel ∧ f.message env = some m := by
  obtain ⟨bytes, m, h1, h2, h3⟩ := C81_exact t addr env hw v ho hu fmt quote hf ts sent hts index hi stmt hx
  obtain ⟨s, hs⟩ := text_total (cell := []) (l := fun p => some (p.text env quote)) (fun p => ⟨_, rfl⟩) v
  obtain ⟨b, b1, _, b2⟩ := text_cells c!")" _ ho s hs
  obtain rfl := Option.some.inj (h2.symm.trans b1)
  exact ⟨bytes, m, h1, by rw [hs, b2 hc], h3⟩

/-- **C81 does not hold** for any value with a `Cell` in it: as many characters too many are shown as there are
cells in the value. -/
theorem C81_cells (t : Table) (addr : List Char → Nat) (env : Env) (hw : 2 ≤ env.maxWidth) (v : Value) (ho : v.Ok)
    (hu : ∀ s ∈ v.uses, Interned t addr s) (fmt : List Char) (quote : List Char → List Char) (hf : (fmt, quote) ∈ showing env)
    (ts : Option Call) (sent : List UInt8) (hts : Stamped t ts sent)
    (index : Nat) (hi : index < 2 ^ 16) (stmt : Tag) (hx : t.entries index = some ⟨stmt, fmt⟩) :
    ∃ bytes right m, encode addr v = some bytes ∧ v.text [] (fun p => some (p.text env quote)) = some right ∧
      (∀ rest, ∃ f : Frame, t.decode (le 2 index ++ sent ++ bytes ++ rest) = some (.ok (f, 2 + sent.length + bytes.length)) ∧ f.message env = some m) ∧
      m.length = right.length + v.cells ∧ (m = right ↔ v.cells = 0) := by
  obtain ⟨bytes, m, h1, h2, h3⟩ := C81_exact t addr env hw v ho hu fmt quote hf ts sent hts index hi stmt hx
  obtain ⟨s, hs⟩ := text_total (cell := []) (l := fun p => some (p.text env quote)) (fun p => ⟨_, rfl⟩) v
  obtain ⟨b, b1, b2, b3⟩ := text_cells c!")" _ ho s hs
  obtain rfl := Option.some.inj (h2.symm.trans b1)
  simp only [List.length_singleton, Nat.mul_one] at b2
  refine ⟨bytes, s, m, h1, hs, fun rest => ?_, b2, fun h => ?_, b3⟩
  · obtain ⟨f, f1, _, _, f2⟩ := h3 rest
    exact ⟨f, f1, f2⟩
  · rw [h] at b2; omega

/-- a `Cell` in a tuple with a number in an `Option` in a `Cell` -/
example : (Value.written .cell [.some (.tuple [.written .cell [.prim (.u8 5)], .prim (.u8 1)])]).text c!")"
      (fun p => some (p.text demoEnv id)) = some c!"Cell { value: Some((Cell { value: 5 }), 1)) })" ∧
    (Value.written .cell [.some (.tuple [.written .cell [.prim (.u8 5)], .prim (.u8 1)])]).cells = 2 := by
  decide +kernel

/-- `Some([(1, "a"), (2, "b")])` with an array of two pairs -/
def demoValue : Value :=
  .some (.array (some c!"({=?}, {=?})") [.tuple [.prim (.u8 1), .prim (.str c!"a")], .tuple [.prim (.u8 2), .prim (.str c!"b")]])

/-- a table for the strings in the examples -/
def implsTable : List (List Char) :=
  [c!"None|Some({=?})", c!"{=[?;2]}", c!"({=?}, {=?})", c!"{=u8}", c!"{=str}", c!"{=__internal_FormatSequence}",
   c!"{}..{}", c!"Cell {{ value: {=?} }})"]

/-- strings from address 2 on; the log statement at 1 -/
def implsAddr (s : List Char) : Nat := implsTable.idxOf s + 2

def implsDefmt (fmt : List Char) : Table :=
  ⟨none, fun i => if i = 1 then some ⟨.info, fmt⟩ else if i = 0 then none else (implsTable[i - 2]?).map (fun s => ⟨.derived, s⟩)⟩

example : demoValue.Ok ∧ (∀ s ∈ demoValue.uses, Interned (implsDefmt c!"{:?}") implsAddr s) := by
  constructor
  · simp [demoValue, Value.Ok, AllOk, Prim.Ok, Value.tag, tupleFmt, tupleTable]
    decide
  · unfold Interned Linked
    decide +kernel

example : demoValue.text [] (fun p => some (p.text demoEnv demoEnv.debugStr)) = some c!"Some([(1, \"a\"), (2, \"b\")])" := by
  decide +kernel

example : encode implsAddr demoValue = some ([2, 0, 1, 3, 0, 4, 0] ++ [5, 0, 1, 6, 0, 1, 0, 0, 0, 97] ++ [5, 0, 2, 6, 0, 1, 0, 0, 0, 98]) := by
  decide +kernel

/-- **C81 does not hold** for `Cell`: `Cell(5u8)` is shown as `Cell { value: 5 })`. -/
theorem C81_fails_cell :
    let v : Value := .written .cell [.prim (.u8 5)]
    v.text [] (fun p => some (p.text demoEnv id)) = some c!"Cell { value: 5 }" ∧
    ∃ bytes f n, encode implsAddr v = some bytes ∧
      (implsDefmt c!"{}").decode (le 2 1 ++ bytes) = some (.ok (f, n)) ∧ f.message demoEnv = some c!"Cell { value: 5 })" := by
  refine ⟨by decide +kernel, [7, 0, 9, 0, 5, 0, 5, 0, 0],
    ⟨some .info, 1, none, [], c!"{}", [.format c!"{=__internal_FormatSequence}"
      [.formatSequence [.format c!"Cell {{ value: {=?} }})" [.format c!"{=u8}" [.uxx 5]]]]]⟩, 11, by decide +kernel, by rfl,
    by decide +kernel⟩

/-! ### C82 -/

/-- **C82** (partial) A newtype whose `format` calls the `format` of the value inside is shown like that
value, under every hint except `a`. Missing: values of types with several variants (`C82_fails`). -/
theorem C82_newtype_partial (t : Table) (addr : List Char → Nat) (env : Env) (hw : 2 ≤ env.maxWidth) (v : Value) (ho : v.Ok)
    (hv : '|' ∉ v.tag) (hu : ∀ s ∈ manualFmt :: v.uses, Interned t addr s)
    (fmt : List Char) (hint : Option Hint) (hh : hint ≠ some .ascii)
    (hp : parse fmt .forwardsCompatible = .ok [.param ⟨0, .format, hint⟩]) (ha : argTypes fmt 1 = some [.format])
    (ts : Option Call) (sent : List UInt8) (hts : Stamped t ts sent)
    (index : Nat) (hi : index < 2 ^ 16) (stmt : Tag) (hx : t.entries index = some ⟨stmt, fmt⟩) :
    ∃ inner outer, encode addr v = some inner ∧ encode addr (.newtype v) = some outer ∧
      ∀ rest, ∃ f g : Frame, t.decode (le 2 index ++ sent ++ inner ++ rest) = some (.ok (f, 2 + sent.length + inner.length)) ∧
        t.decode (le 2 index ++ sent ++ outer ++ rest) = some (.ok (g, 2 + sent.length + outer.length)) ∧ g.message env = f.message env := by
  have hu' : ∀ s ∈ (Value.newtype v).uses, Interned t addr s := by rw [Value.uses]; exact hu
  have ho' : (Value.newtype v).Ok := by rw [Value.Ok]; exact ⟨hv, ho⟩
  obtain ⟨a, a1, a2⟩ := impls_log hw ho (fun s hs => hu s (by simp [hs])) hh hp ha hts hi hx
  obtain ⟨b, b1, b2⟩ := impls_log hw ho' hu' hh hp ha hts hi hx
  refine ⟨a, b, a1, b1, fun rest => ?_⟩
  obtain ⟨f, f1, _, _, f2⟩ := a2 rest
  obtain ⟨g, g1, _, _, g2⟩ := b2 rest
  exact ⟨f, g, f1, g1, by rw [f2, g2, Value.text]⟩

/-- a newtype around a newtype around a range -/
example : encode implsAddr (.newtype (.newtype (.written .range [.prim (.u8 1), .prim (.u8 2)]))) =
    some ([7, 0] ++ [8, 0, 5, 0, 1, 5, 0, 2] ++ [0, 0]) := by decide +kernel

example : parse c!"{:#x}" .forwardsCompatible = .ok [.param ⟨0, .format, some (.hexadecimal true false 0)⟩] ∧
    argTypes c!"{:#x}" 1 = some [.format] := by decide +kernel

/-- **C82 does not hold** for types with several variants: a newtype around `Some(5u8)` or around `None` is
rejected by the host as malformed, although both values alone are fine. -/
theorem C82_fails :
    (∃ a f n, encode implsAddr (.some (.prim (.u8 5))) = some a ∧
      (implsDefmt c!"{}").decode (le 2 1 ++ a) = some (.ok (f, n)) ∧ f.message demoEnv = some c!"Some(5)") ∧
    (∃ b, encode implsAddr (.newtype (.some (.prim (.u8 5)))) = some b ∧
      (implsDefmt c!"{}").decode (le 2 1 ++ b) = some (.err .malformed)) ∧
    (∃ b, encode implsAddr (.newtype .none) = some b ∧
      (implsDefmt c!"{}").decode (le 2 1 ++ b) = some (.err .malformed)) := by
  refine ⟨⟨[2, 0, 1, 5, 0, 5], ⟨some .info, 1, none, [], c!"{}", [.format c!"Some({=?})" [.format c!"{=u8}" [.uxx 5]]]⟩, 8,
    by decide +kernel, by rfl, by decide +kernel⟩,
    ⟨[7, 0, 2, 0, 1, 5, 0, 5, 0, 0], by decide +kernel, by rfl⟩, ⟨[7, 0, 2, 0, 0, 0, 0], by decide +kernel, by rfl⟩⟩

/-- the host takes the discriminant and the terminator for an address -/
theorem empty_in_newtype {t : Table} (h0 : t.entries 0 = none) {addr : List Char → Nat} {s : List Char} (hs : Interned t addr s)
    (hm : Interned t addr manualFmt) {fs : List Parser.Fragment} (hp : parse s .forwardsCompatible = .ok fs)
    (hty : prepareParams (params fs) = [⟨0, .format, none⟩]) (fuel : Nat) (rest : List UInt8) :
    decodeArg t (decodeFormat t (fuel + 2)) (fuel + 3) .format (le 2 (addr manualFmt) ++ (le 2 (addr s) ++ (le 2 0 ++ rest))) =
      .err .malformed := by
  have hg : t.getWithoutLevel 0 = none := by simp [Table.getWithoutLevel, Table.getWithLevel, h0]
  have h1 : decodeFormat t (fuel + 1) s (le 2 0 ++ rest) = .err .malformed := by
    rw [decodeFormat, hp]
    simp only [hty, decodeParams, decodeArg, getFormat]
    show (Dec.bind _ _) _ = _
    simp only [Dec.bind, bind]
    rw [readUInt_le' (by decide)]
    simp only [hg]
    rfl
  obtain ⟨gs, g1, g2⟩ := sequence_types
  have h2 : decodeSequence t (decodeFormat t (fuel + 1)) (fuel + 2) (le 2 (addr s) ++ (le 2 0 ++ rest)) = .err .malformed := by
    rw [decodeSequence, bind_of_ok (readUInt_le' (by simpa using hs.2.1) _), if_neg hs.1, hs.2.2]
    show (Dec.bind _ _) _ = _
    simp only [Dec.bind, bind, orMalformed, pure, h1]
  have h3 : decodeFormat t (fuel + 2) manualFmt (le 2 (addr s) ++ (le 2 0 ++ rest)) = .err .malformed := by
    rw [decodeFormat, show parse manualFmt .forwardsCompatible = .ok gs from g1]
    cases hq : prepareParams (params gs) with
    | nil => rw [hq] at g2; simp at g2
    | cons q qs =>
      rw [hq] at g2
      simp only [List.map_cons, List.cons.injEq] at g2
      simp only [hq, decodeParams, g2.1, decodeArg]
      show (Dec.bind (Dec.bind _ _) _) _ = _
      simp only [Dec.bind, h2]
  simp only [decodeArg]
  rw [bind_of_ok (getFormat_ok hm.2 _), bind_of_ok (show chooseVariant manualFmt _ = .ok manualFmt _ from rfl)]
  show (Dec.bind _ _) _ = _
  simp only [Dec.bind, h3]

/-- the timestamp, with enough fuel -/
theorem stamp_decoded {t : Table} {ts : Option Call} {sent : List UInt8} (h : Stamped t ts sent) :
    ∃ N, ∀ fuel ≥ N, ∀ rest, ∃ a, t.decodeTimestamp fuel (sent ++ rest) = .ok a rest := by
  cases ts with
  | none =>
    obtain ⟨h1, rfl⟩ := h
    exact ⟨0, fun fuel _ rest => ⟨_, by unfold Table.decodeTimestamp; rw [h1]; rfl⟩⟩
  | some c =>
    obtain ⟨⟨tag, h1⟩, h2, h3⟩ := h
    obtain ⟨d, hd, N, hN⟩ := call_ok h2
    obtain rfl := Option.some.inj (hd.symm.trans h3)
    refine ⟨N, fun fuel hf rest => ⟨(some c.fmt, c.denote), ?_⟩⟩
    unfold Table.decodeTimestamp
    rw [h1]
    simp only
    rw [bind_of_ok (hN fuel hf rest), pure_apply]

/-- **C82 does not hold** in any program: a newtype around `None`, or around a `RefCell` that is borrowed, gives
a frame that the host rejects, whatever follows it. (Nothing is at address 0: the section starts at 1, defmt.x.in:14-17.) -/
theorem C82_fails_always (t : Table) (addr : List Char → Nat) (h0 : t.entries 0 = none)
    (v : Value) (hv : v = .none ∨ v = .borrowed) (hu : ∀ s ∈ (Value.newtype v).uses, Interned t addr s)
    (fmt : List Char) (hint : Option Hint) (hp : parse fmt .forwardsCompatible = .ok [.param ⟨0, .format, hint⟩])
    (ts : Option Call) (sent : List UInt8) (hts : Stamped t ts sent)
    (index : Nat) (hi : index < 2 ^ 16) (stmt : Tag) (hx : t.entries index = some ⟨stmt, fmt⟩) (rest : List UInt8) :
    ∃ bytes, encode addr (.newtype v) = some bytes ∧ t.decode (le 2 index ++ sent ++ bytes ++ rest) = some (.err .malformed) := by
  obtain ⟨N, hN⟩ := stamp_decoded hts
  have key : ∀ s fs, Interned t addr s → Interned t addr manualFmt → parse s .forwardsCompatible = .ok fs →
      prepareParams (params fs) = [⟨0, .format, none⟩] →
      t.decode (le 2 index ++ sent ++ (le 2 (addr manualFmt) ++ (le 2 (addr s) ++ le 1 0 ++ le 2 0)) ++ rest) = some (.err .malformed) := by
    intro s fs hs hm hps hty
    have hb : le 2 index ++ sent ++ (le 2 (addr manualFmt) ++ (le 2 (addr s) ++ le 1 0 ++ le 2 0)) ++ rest =
        le 2 index ++ (sent ++ (le 2 (addr manualFmt) ++ (le 2 (addr s) ++ (le 2 0 ++ ([0] ++ rest))))) := by
      simp [le]
    rw [hb]
    generalize hl : (le 2 index ++ (sent ++ (le 2 (addr manualFmt) ++ (le 2 (addr s) ++ (le 2 0 ++ ([0] ++ rest)))))).length = len
    have he := empty_in_newtype h0 hs hm hps hty (N + len) ([0] ++ rest)
    have hd : decodeFormat t (N + len + 3) fmt (le 2 (addr manualFmt) ++ (le 2 (addr s) ++ (le 2 0 ++ ([0] ++ rest)))) = .err .malformed := by
      rw [decodeFormat, hp]
      simp only [show prepareParams (params [.param ⟨0, .format, hint⟩]) = [⟨0, .format, hint⟩] from rfl, decodeParams]
      show (Dec.bind _ _) _ = _
      simp only [Dec.bind, he]
    unfold Table.decode
    rw [← decodeFrame_fuel t _ (N + len + 3) (by omega)]
    obtain ⟨a, ha⟩ := hN (N + len + 3) (by omega) (le 2 (addr manualFmt) ++ (le 2 (addr s) ++ (le 2 0 ++ ([0] ++ rest))))
    have : t.decodeFrame (N + len + 3) (le 2 index ++ (sent ++ (le 2 (addr manualFmt) ++ (le 2 (addr s) ++ (le 2 0 ++ ([0] ++ rest)))))) =
        .err .malformed := by
      unfold Table.decodeFrame
      rw [bind_of_ok (readUInt_le' (by simpa using hi) _), bind_of_ok ha]
      show (Dec.bind _ _) _ = _
      simp only [Dec.bind, bind, pure, orMalformed, Table.getWithLevel, hx]
      simp only [hd]
    rw [this]
  rcases hv with rfl | rfl
  · refine ⟨_, rfl, key _ [.literal c!"None|Some(", .param ⟨0, .format, none⟩, .literal c!")"] (hu _ ?_) (hu _ ?_) (by decide +kernel) (by decide +kernel)⟩
    · rw [Value.uses, Value.uses]; simp [Value.tag]
    · rw [Value.uses]; simp
  · refine ⟨_, rfl, key _ [.literal c!"RefCell { value: <borrowed> }|RefCell { value: ", .param ⟨0, .format, none⟩, .literal c!" }"] (hu _ ?_) (hu _ ?_) (by decide +kernel) (by decide +kernel)⟩
    · rw [Value.uses, Value.uses]; simp [Value.tag]
    · rw [Value.uses]; simp

example : (implsDefmt c!"{}").entries 0 = none ∧ Stamped (implsDefmt c!"{}") none [] ∧
    (∀ s ∈ (Value.newtype .none).uses, Interned (implsDefmt c!"{}") implsAddr s) ∧
    parse c!"{}" .forwardsCompatible = .ok [.param ⟨0, .format, none⟩] ∧
    (implsDefmt c!"{}").entries 1 = some ⟨.info, c!"{}"⟩ := by
  unfold Interned Linked Stamped
  decide +kernel

/-- **C82 does not hold** for enums without fields either: a newtype around the variant `A` of an enum `A|B`
is shown as `A|B`. -/
theorem C82_fails_enum :
    let t : Table := ⟨none, fun i => if i = 1 then some ⟨.info, c!"{}"⟩ else if i = 2 then some ⟨.derived, sequenceFormat⟩
      else if i = 3 then some ⟨.derived, c!"A|B"⟩ else none⟩
    formatData (.variant 3 [c!"A", c!"B"] 0 []) = some [0] ∧
    ∃ f n, t.decode (le 2 1 ++ le 2 2 ++ (le 2 3 ++ [0]) ++ le 2 0) = some (.ok (f, n)) ∧ f.message demoEnv = some c!"A|B" := by
  refine ⟨by rfl, ⟨some .info, 1, none, [], c!"{}", [.format sequenceFormat [.formatSequence [.format c!"A|B" []]]]⟩, 8, by rfl,
    by decide +kernel⟩

/-! ### C83 -/

theorem leaf_alone (env : Env) (hint : Option Hint) (p : Prim) : leaf env hint p = p.alone env hint := by
  have e1 : (hint <|> none) = hint := by cases hint <;> rfl
  cases p <;> simp only [leaf, Prim.alone, Prim.arg, showArg, none_hint, e1, Prim.ty, formatUxx]
  all_goals split <;> rfl

/-- **C83** A display hint on a value of a provided type is applied to every primitive value in it, as if
that were logged alone with this hint (except where the implementation has its own hint, as for IPv6
addresses and pointers); the rest of the text stays (with the mistake of C81 for `Cell`). If one of them cannot be shown, the value cannot. -/
theorem C83_hint (t : Table) (addr : List Char → Nat) (env : Env) (hw : 2 ≤ env.maxWidth) (v : Value) (ho : v.Ok)
    (hu : ∀ s ∈ v.uses, Interned t addr s) (fmt : List Char) (hint : Option Hint) (hh : hint ≠ some .ascii)
    (hp : parse fmt .forwardsCompatible = .ok [.param ⟨0, .format, hint⟩]) (ha : argTypes fmt 1 = some [.format])
    (ts : Option Call) (sent : List UInt8) (hts : Stamped t ts sent)
    (index : Nat) (hi : index < 2 ^ 16) (stmt : Tag) (hx : t.entries index = some ⟨stmt, fmt⟩) :
    ∃ bytes, encode addr v = some bytes ∧ ∀ rest, ∃ f : Frame,
      t.decode (le 2 index ++ sent ++ bytes ++ rest) = some (.ok (f, 2 + sent.length + bytes.length)) ∧
      f.message env = v.text c!")" (Prim.alone env hint) := by
  obtain ⟨a, a1, a2⟩ := impls_log hw ho hu hh hp ha hts hi hx
  refine ⟨a, a1, fun rest => ?_⟩
  obtain ⟨f, f1, _, _, f2⟩ := a2 rest
  exact ⟨f, f1, by rw [f2, show leaf env hint = Prim.alone env hint from funext (leaf_alone env hint)]⟩

/-- `{:#04x}` of `Ok([10, 200])` and of a range in a tuple with an address -/
example : (Value.ok (.array (some c!"{=u8}") [.prim (.u8 10), .prim (.u8 200)])).text []
      (Prim.alone demoEnv (some (.hexadecimal true false 4))) = some c!"Ok([0x0a, 0xc8])" ∧
    (Value.tuple [.written .range [.prim (.u8 1), .prim (.u16 300)], .ipv6 (List.replicate 14 0 ++ [0, 1])]).text []
      (Prim.alone demoEnv (some (.hexadecimal true false 4))) = some c!"(0x01..0x12c, 0000:0000:0000:0000:0000:0000:0000:0001)" := by
  decide +kernel

/-! ### C84 -/

theorem fmtSlice_none (addr : List Char → Nat) (tag : Option (List Char)) (n : Nat) (e : Option (List UInt8)) :
    fmtSlice addr tag n e = none ↔ tag = none ∨ e = none := by
  cases tag <;> cases e <;> simp [fmtSlice]

theorem fmtArray_none (addr : List Char → Nat) (tag : Option (List Char)) (e : Option (List UInt8)) :
    fmtArray addr tag e = none ↔ tag = none ∨ e = none := by
  cases tag <;> cases e <;> simp [fmtArray]

mutual

theorem core_none (addr : List Char → Nat) : ∀ v : Value, core addr v = none ↔ v.OverInfallible
  | .prim p => by simp [core, Value.OverInfallible]
  | .unit => by simp [core, Value.OverInfallible]
  | .phantom => by simp [core, Value.OverInfallible]
  | .tuple vs => by rw [core, Value.OverInfallible]; exact coreArgs_none addr vs
  | .none => by simp [core, Value.OverInfallible]
  | .some v => by rw [core, Value.OverInfallible, Option.map_eq_none_iff]; exact core_none addr v
  | .err v => by rw [core, Value.OverInfallible, Option.map_eq_none_iff]; exact core_none addr v
  | .ok v => by rw [core, Value.OverInfallible, Option.map_eq_none_iff]; exact core_none addr v
  | .borrowed => by simp [core, Value.OverInfallible]
  | .refCell v => by rw [core, Value.OverInfallible, Option.map_eq_none_iff]; exact core_none addr v
  | .slice tag vs => by rw [core, Value.OverInfallible, fmtSlice_none, coreElems_none addr vs]
  | .array tag vs => by
    rw [core, Value.OverInfallible]
    split
    · rw [fmtArray_none, coreElems_none addr vs]
    · rw [fmtSlice_none, coreElems_none addr vs]
  | .reference v => by rw [core, Value.OverInfallible]; exact core_none addr v
  | .nonZero p => by simp [core, Value.OverInfallible]
  | .duration _ _ => by simp [core, Value.OverInfallible]
  | .location _ _ _ => by simp [core, Value.OverInfallible]
  | .ipv6 _ => by simp [core, Value.OverInfallible]
  | .pointer _ => by simp [core, Value.OverInfallible]
  | .iter tag vs => by rw [core, Value.OverInfallible, Option.map_eq_none_iff, fmtSlice_none, coreElems_none addr vs]
  | .written _ vs => by rw [core, Value.OverInfallible, Option.map_eq_none_iff]; exact coreArgs_none addr vs
  | .newtype v => by rw [core, Value.OverInfallible, Option.map_eq_none_iff]; exact core_none addr v

theorem coreArgs_none (addr : List Char → Nat) : ∀ vs : List Value, coreArgs addr vs = none ↔ AnyOverInfallible vs
  | [] => by simp [coreArgs, AnyOverInfallible]
  | v :: vs => by
    rw [coreArgs, AnyOverInfallible, ← core_none addr v, ← coreArgs_none addr vs]
    cases core addr v <;> cases coreArgs addr vs <;> simp

theorem coreElems_none (addr : List Char → Nat) : ∀ vs : List Value, coreElems addr vs = none ↔ AnyOverInfallible vs
  | [] => by simp [coreElems, AnyOverInfallible]
  | v :: vs => by
    rw [coreElems, AnyOverInfallible, ← core_none addr v, ← coreElems_none addr vs]
    cases core addr v <;> cases coreElems addr vs <;> simp

end

/-- **C84** (partial: the property is that it never panics) Logging a value of a provided type panics on the
target exactly if there is a slice, array or slice iterator over `Infallible` somewhere in it. -/
theorem C84_panics_partial (addr : List Char → Nat) (v : Value) : encode addr v = none ↔ v.OverInfallible := by
  rw [encode, Option.map_eq_none_iff]
  exact core_none addr v

/-- **C84 does not hold**: `Some([])` with an empty slice of `Infallible` is a value of a provided type, all of
its integers fit, and logging it panics. -/
theorem C84_fails (addr : List Char → Nat) : encode addr (.some (.slice none [])) = none :=
  (C84_panics_partial addr _).mpr (by simp [Value.OverInfallible])

/-- other empty slices are fine -/
example : encode implsAddr (.some (.slice (some c!"{=u8}") [])) ≠ none := by decide +kernel

end Defmt
