/-!
The texts of map keys in reports: `streamField`, `/repo/lens/astclient.go:362–378`, prints each key with `fmt.Sprint(k.Interface())`, which calls the `String`, `Error` or `Format` method of its
type: code of the program, which can be instrumented itself.

Values are cut down to what matters here: structs, maps and everything else. A method is what it does in order for a receiver: things that others can notice, and reports of the values in its scope
(`/repo/lens/asttweak.go`, `InjectFuncPointReturnStates`). Simplified: keys are numbers of one type; methods of parts of keys are not called; cycles are left out, since every report starts
with no values visited (`sendLensPointStateMessage`, astclient.go:104–106).
-/

namespace Verif.Keys

/-- A value: struct with its fields, map with the type of its keys and its entries, anything else. -/
inductive Val where
  | other
  | struct (fields : List Val)
  | map (type : Nat) (entries : List (Nat × Val))

/-- What a method does. -/
inductive Act where
  | effect (n : Nat)
  | report (v : Val)

/-- The method by which the keys of a type are printed, if it has one. -/
abbrev Methods := Nat → Option (Nat → List Act)

/-- `lensMonitorFieldMaxRecurse` and `lensMonitorFieldMaxLen`. -/
structure Cfg where
  depth : Nat
  len : Nat

/-- One after the other, in order; `none` if one does not end. -/
def each {α β : Type} (f : α → Option (List β)) : List α → Option (List β)
  | [] => some []
  | a :: l => (f a).bind fun x => (each f l).map (x ++ ·)

mutual
/-- `streamField` at a depth: all that is noticed of it in order; `none` if it takes more than the given number of nested calls. Keys beyond the limit are left out, astclient.go:372–377
(entries are taken as sorted). -/
def capture (c : Cfg) (ms : Methods) : Nat → Nat → Val → Option (List Nat)
  | 0, _, _ => none
  | fuel + 1, depth, v =>
    if c.depth ≤ depth then some []
    else match v with
      | .other => some []
      | .struct fields => each (capture c ms fuel (depth + 1)) fields
      | .map type entries => each (fun e => (sprint c ms fuel type e.1).bind fun x => (capture c ms fuel (depth + 1) e.2).map (x ++ ·)) (entries.take c.len)

/-- `fmt.Sprint` of a key. A report within starts at depth 0, astclient.go:104–106. -/
def sprint (c : Cfg) (ms : Methods) : Nat → Nat → Nat → Option (List Nat)
  | 0, _, _ => none
  | fuel + 1, type, key =>
    match ms type with
    | none => some []
    | some m => each (fun
      | .effect n => some [n]
      | .report v => capture c ms fuel 0 v) (m key)
end

/-- The report of a value, `sendLensPointStateMessage`, astclient.go:85–107. -/
def report (c : Cfg) (ms : Methods) (fuel : Nat) (v : Val) : Option (List Nat) := capture c ms fuel 0 v

/-- The report of a panic prints its value, astclient.go:117–136. -/
def reportPanic (c : Cfg) (ms : Methods) (fuel : Nat) (type value : Nat) : Option (List Nat) := sprint c ms fuel type value

end Verif.Keys
