import Verif.Base
import Verif.Wire.Model

/-! The HTTP side of the monitoring server and the string limit of the client. -/

namespace Verif.Wire

/-- The four endpoints registered in `newASTServer`, astsrv.go (paths in astapi.go:5–8). -/
inductive Endpoint where
  | point | state | panic | error
deriving DecidableEq, Repr

/-- The part of an HTTP request the handlers look at. -/
structure Request where
  endpoint : Endpoint
  isPost : Bool
  body : Bytes

/-- What a handler does with a decoded message: call the registered point handler, or write a log line. -/
inductive Effect where
  | point (m : MsgPoint)
  | state (m : MsgState Field)
  | panic (m : MsgPanic)
  | logged (m : MsgError)

/-- Status code and effects of one request. -/
structure Reply where
  status : Nat
  effects : List Effect

/-- The common shape of the four handlers. -/
def reply {α} (d : Rd α) (eff : α → Effect) (body : Bytes) : Reply :=
  match (d body).out with
  | none => ⟨400, []⟩
  | some (m, _) => ⟨200, [eff m]⟩

/-- `handlePoint`, `handlePointState`, `handlePointPanic`, `handleEventError`, astsrv.go:157–234.
Simplified: the response text, the log output and a handler that panics are not modelled. -/
def serve (maxLen : Nat) (r : Request) : Reply :=
  if r.isPost then
    match r.endpoint with
    | .point => reply decodePoint .point r.body
    | .state => reply (decodeState maxLen) .state r.body
    | .panic => reply decodePanic .panic r.body
    | .error => reply decodeError .logged r.body
  else ⟨405, []⟩

/-- `limitLensMonitorStringSize`, astclient.go:113–118; `limit` is `lensMonitorFieldMaxLen`.
The note is "…(" + the decimal count + " more)"; "…" is E2 80 A6 in UTF-8. -/
def limitString (limit : Nat) (s : Bytes) : Bytes :=
  if s.length > limit then
    s.take limit ++ [0xE2, 0x80, 0xA6, 0x28] ++ itoaBytes (s.length - limit) ++ [0x20, 0x6D, 0x6F, 0x72, 0x65, 0x29]
  else s

end Verif.Wire
