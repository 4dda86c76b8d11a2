import Verif.Client.Args

/-!
# How Python binds the arguments of a call

This is the language reference's description of calls, parameter by parameter; it does not use the client's code.
-/

namespace Verif.Spec.Args

open Verif.Client

variable {V : Type}

/-- What a parameter is bound to. -/
inductive Bound (V : Type) where
  | one (v : V)
  | many (vs : List V)
  | named (kw : List (String × V))
  deriving DecidableEq

/-- The local variables of `f(*args, **kw)` when it starts, or nothing if the call is rejected. -/
def bind : List (Param V) → List V → Dict String V → Option (List (String × Bound V))
  | [], args, kw => if args.isEmpty && kw.items.isEmpty then some [] else none
  | p :: ps, args, kw =>
    match p.kind with
    | .posOnly =>
      match args with
      | a :: as => (bind ps as kw).map ((p.name, .one a) :: ·)
      | [] =>
        match p.default with
        | some v => (bind ps [] kw).map ((p.name, .one v) :: ·)
        | none => none
    | .posOrKw =>
      match args with
      | a :: as => if kw.has p.name then none else (bind ps as kw).map ((p.name, .one a) :: ·)
      | [] =>
        match kw.get? p.name with
        | some v => (bind ps [] (kw.erase p.name)).map ((p.name, .one v) :: ·)
        | none =>
          match p.default with
          | some v => (bind ps [] kw).map ((p.name, .one v) :: ·)
          | none => none
    | .varPos => (bind ps [] kw).map ((p.name, .many args) :: ·)
    | .kwOnly =>
      match kw.get? p.name with
      | some v => (bind ps args (kw.erase p.name)).map ((p.name, .one v) :: ·)
      | none =>
        match p.default with
        | some v => (bind ps args kw).map ((p.name, .one v) :: ·)
        | none => none
    | .varKw => (bind ps args .empty).map ((p.name, .named kw.items) :: ·)

/-- A signature: required positional parameters, positional parameters with defaults, the rest; names are distinct. -/
structure Signature (V : Type) where
  required : List (Param V)
  optional : List (Param V)
  rest : List (Param V)
  hreq : ∀ p ∈ required, p.positional = true ∧ p.default = none
  hopt : ∀ p ∈ optional, p.positional = true ∧ p.default.isSome = true
  hrest : ∀ p ∈ rest, p.positional = false
  nodup : ((required ++ optional ++ rest).map (·.name)).Nodup

/-- The parameters in order. -/
def Signature.params (s : Signature V) : List (Param V) := s.required ++ s.optional ++ s.rest

/-- Positional parameters. -/
def Signature.positional (s : Signature V) : List (Param V) := s.required ++ s.optional

end Verif.Spec.Args
