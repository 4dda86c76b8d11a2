import Verif.Util.Decimal

/-!
# `scaled/utility/zmq_config.py`

A string is a list of characters.  The types of the fields are right, so the `TypeError`s of `__post_init__`
(23-27, 36-37) do not happen.
-/

namespace Verif.Util

/-- `ZMQType` (zmq_config.py 6-9) -/
inductive ZmqType where
  | inproc | ipc | tcp
  deriving DecidableEq, Repr

/-- zmq_config.py 7-9 -/
def ZmqType.value : ZmqType → List Char
  | .inproc => ['i', 'n', 'p', 'r', 'o', 'c']
  | .ipc => ['i', 'p', 'c']
  | .tcp => ['t', 'c', 'p']

/-- `ZMQType(s)`, `none` if `s` is not in `allowed_types()` (zmq_config.py 11-13, 54, 57) -/
def ZmqType.ofValue (s : List Char) : Option ZmqType :=
  if s = ZmqType.inproc.value then some .inproc
  else if s = ZmqType.ipc.value then some .ipc
  else if s = ZmqType.tcp.value then some .tcp
  else none

/-- `ZMQConfig` (zmq_config.py 16-20) -/
structure ZmqConfig where
  type : ZmqType
  host : List Char
  port : Option Int
  deriving DecidableEq

/-- The constructor with `__post_init__` (zmq_config.py 22-37) -/
def ZmqConfig.make (type : ZmqType) (host : List Char) (port : Option Int) : Py ZmqConfig := do
  match port with
  | none => raiseIf (decide (type = .tcp)) .valueError
  | some _ => raiseIf (decide (type = .inproc ∨ type = .ipc)) .valueError
  return ⟨type, host, port⟩

/-- `f"{port}"` of an optional number (scaled/utility/zmq_config.py 39-46) -/
def showPort : Option Int → List Char
  | none => ['N', 'o', 'n', 'e']
  | some i => decInt i

/-- `to_address` (zmq_config.py 39-46) -/
def ZmqConfig.toAddress (c : ZmqConfig) : List Char :=
  match c.type with
  | .tcp => ['t', 'c', 'p', ':', '/', '/'] ++ c.host ++ ':' :: showPort c.port
  | t => t.value ++ [':', '/', '/'] ++ c.host

/-- `s.split("://", 1)` if `"://"` is in `s` (zmq_config.py 50, 53) -/
def splitScheme : List Char → Option (List Char × List Char)
  | [] => none
  | ':' :: '/' :: '/' :: cs => some ([], cs)
  | c :: cs => (splitScheme cs).map fun p => (c :: p.1, p.2)

/-- `s.split(":")` (zmq_config.py 62) -/
def splitColon : List Char → List (List Char)
  | [] => [[]]
  | c :: cs =>
    if c = ':' then [] :: splitColon cs
    else
      match splitColon cs with
      | [] => [[c]]
      | p :: ps => (c :: p) :: ps

/-- `from_string` (zmq_config.py 48-68) -/
def ZmqConfig.fromString (s : List Char) : Py ZmqConfig := do
  let (scheme, rest) ← orRaise (splitScheme s) .valueError
  let type ← orRaise (ZmqType.ofValue scheme) .valueError
  if type = .inproc ∨ type = .ipc then
    ZmqConfig.make type rest none
  else
    match splitColon rest with
    | [host, port] => do
      let i ← orRaise (parseInt port) .valueError
      ZmqConfig.make type host (some i)
    -- unpacking fails
    | _ => .error .valueError

end Verif.Util
