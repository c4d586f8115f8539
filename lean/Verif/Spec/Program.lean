import Verif.Model.Program
/-!
Specification side of C90 to C92 and C115: what code does as a whole, without the machine of the model (only the data types and the application
itself are used).
-/

namespace Defmt.Program

/-- The code returns; the events in between and the world afterwards. `true` is for code that runs while a frame is written: it can write
and format, and it cannot log (except with statements that are filtered out). -/
inductive Runs {W : Type} (p : Program W) : Bool → List Code → W → List Event → W → Prop
  | done {k w} : Runs p k [] w [] w
  | write {b rest w t w'} : Runs p true rest w t w' → Runs p true (.write b :: rest) w (.data b :: t) w'
  | nested {g rest w t w' t' w''} : Runs p true (p.fmt g w) w t w' → Runs p true rest w' t' w'' →
      Runs p true (.nested g :: rest) w (t ++ t') w''
  | call {k f rest w t w' t' w''} : Runs p k ((p.body f w).2.map .stmt) (p.body f w).1 t w' → Runs p k rest w' t' w'' →
      Runs p k (.stmt (.call f) :: rest) w (.call f :: (t ++ t')) w''
  /-- a log statement: the arguments are evaluated in order, once each; then there is one frame with the timestamp and the arguments -/
  | log {site args rest w t w1 t' w2 t'' w3} : p.enabled site = true →
      Runs p false (args.map (fun a => .stmt (.call a.eval))) w t w1 →
      Runs p true (.nested p.timestamp :: args.map (fun a => .nested a.fmt)) w1 t' w2 →
      Runs p false rest w2 t'' w3 →
      Runs p false (.stmt (.log site args) :: rest) w (t ++ [.start, .header site] ++ t' ++ [.stop] ++ t'') w3
  /-- a log statement that is filtered out: the arguments are evaluated nevertheless -/
  | filtered {k site args rest w t w1 t' w2} : p.enabled site = false →
      Runs p k (args.map (fun a => .stmt (.call a.eval))) w t w1 → Runs p k rest w1 t' w2 →
      Runs p k (.stmt (.log site args) :: rest) w (t ++ t') w2

/-- Formatting code that only formats: it writes a finite number of bytes. -/
inductive Pure {W : Type} (p : Program W) (w : W) : List Code → Prop
  | done : Pure p w []
  | write {b rest} : Pure p w rest → Pure p w (.write b :: rest)
  | nested {g rest} : Pure p w (p.fmt g w) → Pure p w rest → Pure p w (.nested g :: rest)

/-- All formatting code only formats. -/
def PureFormats {W : Type} (p : Program W) : Prop := ∀ g w, Pure p w (p.fmt g w)

/-- The events that are not part of the log. -/
def own (t : List Event) : List Event := t.filter (fun e => match e with
  | .call _ | .handler | .fault => true
  | _ => false)

/-- The events after the first panic. -/
def afterPanic (t : List Event) : List Event := (t.dropWhile (· ≠ .handler)).drop 1

/-- The code has been executed: nothing is left to do, without panic or fault. -/
def Returned {W : Type} (s : State W) : Prop := s.ops = [] ∧ .handler ∉ s.trace ∧ .fault ∉ s.trace

/-- The log in a run: the data of the frames that were ended, and of one that was begun and not ended. -/
def logged (index : Nat → List UInt8) (x : List (List UInt8) × Option (List UInt8)) : Event → List (List UInt8) × Option (List UInt8)
  | .start => (x.1, some [])
  | .header site => (x.1, x.2.map (· ++ index site))
  | .data bytes => (x.1, x.2.map (· ++ bytes))
  | .stop => (x.1 ++ x.2.toList, none)
  | .call _ | .handler | .fault => x

/-- The data of the frames that were ended in a run, in order. -/
def payloads (index : Nat → List UInt8) (trace : List Event) : List (List UInt8) := (trace.foldl (logged index) ([], none)).1

/-- The bytes that are written, one after another. -/
def written : List Event → List UInt8
  | [] => []
  | .data bytes :: t => bytes ++ written t
  | _ :: t => written t

end Defmt.Program
