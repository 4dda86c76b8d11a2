import Verif.Base.Dict

/-!
# `Client.__convert_kwargs_to_args` (client.py 262-287)

Simplifications.
* `signature(fn).parameters` is a list of parameters; a default that equals `inspect.Parameter.empty` is no default.
* `empty` stands for `inspect.Parameter.empty` as a value (client.py 285 takes `p.default` as it is).
-/

namespace Verif.Client

/-- `inspect.Parameter.kind` (used by scaled/client.py 265-287) -/
inductive Kind where
  | posOnly
  | posOrKw
  | varPos
  | kwOnly
  | varKw
  deriving DecidableEq

/-- `inspect.Parameter` (used by scaled/client.py 265-287) -/
structure Param (V : Type) where
  name : String
  kind : Kind
  /-- no value if `default is empty` -/
  default : Option V

variable {V : Type}

/-- client.py 266 -/
def Param.positional (p : Param V) : Bool :=
  match p.kind with
  | .posOnly => true
  | .posOrKw => true
  | _ => false

/-- client.py 275 -/
def withDefaults (ps : List (Param V)) (kw : Dict String V) : Dict String V :=
  ps.foldl (fun kw p =>
    match p.kind, p.default with
    | .kwOnly, some v => kw.set p.name v
    | _, _ => kw) kw

/-- client.py 277-282 -/
def takeRequired : List (Param V) → Dict String V → List V → Py (List V × Dict String V)
  | [], kw, l => .ok (l, kw)
  | p :: ps, kw, l =>
    match kw.get? p.name with
    | some v => takeRequired ps (kw.erase p.name) (l ++ [v])
    | none => .error .typeError

/-- client.py 284-285 -/
def takeOptional (empty : V) : List (Param V) → Dict String V → List V → List V
  | [], _, l => l
  | p :: ps, kw, l =>
    match kw.get? p.name with
    | some v => takeOptional empty ps (kw.erase p.name) (l ++ [v])
    | none => takeOptional empty ps kw (l ++ [p.default.getD empty])

/-- `__convert_kwargs_to_args` (client.py 262-287) -/
def convert (empty : V) (all : List (Param V)) (args : List V) (kw : Dict String V) : Py (List V) := do
  let params := all.filter Param.positional
  if args.length ≥ params.length then
    return args
  let required := (params.filter (·.default.isNone)).length
  let (l, kw) ← takeRequired ((params.take required).drop args.length) (withDefaults all kw) args
  return takeOptional empty (params.drop l.length) kw l

end Verif.Client
