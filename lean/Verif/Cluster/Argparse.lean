import Verif.Base.Dict
import Verif.Util.ZmqConfig

/-!
# The part of `argparse` that the commands use

`argparse.ArgumentParser` (CPython 3.8-3.12, `Lib/argparse.py`) for parsers with options that take one value and one
positional argument, as in `scaled/entry_points/{scheduler,cluster,top}.py`.

Simplifications:
* A token that begins with `-`, is not the exact name of an option and not a negative number is an error.  In the code it
  may also be an abbreviation of an option, an option with its value in the same token (`--name=value`, `-nvalue`), `--`,
  or, if it contains a space, a value.
* A usage error is reported at once; in the code `-h` later in the line may print the help instead.
* `.` in negative numbers is not looked at: `int` refuses them.
-/

namespace Verif.Cluster

open Verif.Util

/-- A word of the command line (`sys.argv`, read by scaled/entry_points/scheduler.py 20-70, cluster.py 16-62, top.py 35-41) -/
abbrev Tok := List Char

/-- Why a command ends before it starts (CPython `Lib/argparse.py`; used by scaled/entry_points/scheduler.py 20-70, cluster.py 16-62, top.py 35-41). -/
inductive Stop where
  /-- `parser.error`: a message, `SystemExit(2)` -/
  | usage
  /-- `-h`: `SystemExit(0)` -/
  | help
  | raised (e : PyErr)
  /-- `ImportError` -/
  | importError
  deriving DecidableEq

/-- The value of an argument (CPython `Lib/argparse.py`; used by scaled/entry_points/scheduler.py 20-70, cluster.py 16-62, top.py 35-41). -/
inductive Val where
  | int (n : Int)
  | text (s : Tok)
  | address (a : ZmqConfig)
  deriving DecidableEq

/-- How a value is read: `type=int`, `choices=…`, `type=ZMQConfig.from_string`, or not at all (CPython `Lib/argparse.py`; used by scaled/entry_points/scheduler.py 20-70, cluster.py 16-62, top.py 35-41). -/
inductive Kind where
  | int
  | choice (allowed : List Tok)
  | address
  | text
  deriving DecidableEq

/-- `parser.add_argument(*names, type=…, default=…)` (CPython `Lib/argparse.py`; used by scaled/entry_points/scheduler.py 20-70, cluster.py 16-62, top.py 35-41). -/
structure Arg where
  names : List Tok
  kind : Kind
  default : Option Val
  deriving DecidableEq

/-- `args.name`: from the first name that begins with `--` (or the first name), without leading dashes and with `_` for
`-` (`_get_optional_kwargs`) (CPython `Lib/argparse.py`; used by scaled/entry_points/scheduler.py 20-70, cluster.py 16-62, top.py 35-41). -/
def Arg.dest (a : Arg) : Tok :=
  let name := (a.names.find? fun n => decide (n.take 2 = ['-', '-'])).getD (a.names.headD [])
  (name.dropWhile (· = '-')).map fun c => if c = '-' then '_' else c

/-- `_get_value` and `_check_value`: `ValueError` and `TypeError` become usage errors, other exceptions pass (CPython `Lib/argparse.py`; used by scaled/entry_points/scheduler.py 20-70, cluster.py 16-62, top.py 35-41). -/
def Kind.read (k : Kind) (s : Tok) : Except Stop Val :=
  match k with
  | .int =>
    match parseInt s with
    | some n => .ok (.int n)
    | none => .error .usage
  | .choice allowed => if s ∈ allowed then .ok (.text s) else .error .usage
  | .address =>
    match ZmqConfig.fromString s with
    | .ok a => .ok (.address a)
    | .error .valueError => .error .usage
    | .error .typeError => .error .usage
    | .error e => .error (.raised e)
  | .text => .ok (.text s)

/-- `_parse_optional`: the token is a value, not an option: it does not begin with `-`, is `-`, or is a negative number (CPython `Lib/argparse.py`; used by scaled/entry_points/scheduler.py 20-70, cluster.py 16-62, top.py 35-41). -/
def isValue : Tok → Bool
  | [] => true
  | ['-'] => true
  | '-' :: cs => cs.all isDigit
  | _ => true

/-- `_parse_known_args` (CPython `Lib/argparse.py`; used by scaled/entry_points/scheduler.py 20-70, cluster.py 16-62, top.py 35-41) -/
def parseToks (opts : List Arg) (pos : Arg) : List Tok → Dict Tok Val → Except Stop (Dict Tok Val)
  | [], d => if d.has pos.dest then .ok d else .error .usage
  | t :: ts, d =>
    if t = ['-', 'h'] ∨ t = ['-', '-', 'h', 'e', 'l', 'p'] then .error .help
    else
      match opts.find? fun a => decide (t ∈ a.names) with
      | some a =>
        match ts with
        | [] => .error .usage
        | v :: ts =>
          if isValue v then
            match a.kind.read v with
            | .ok x => parseToks opts pos ts (d.set a.dest x)
            | .error e => .error e
          else .error .usage
      | none =>
        if isValue t then
          if d.has pos.dest then .error .usage
          else
            match pos.kind.read t with
            | .ok x => parseToks opts pos ts (d.set pos.dest x)
            | .error e => .error e
        else .error .usage

/-- `setattr(namespace, action.dest, action.default)` (CPython `Lib/argparse.py`; used by scaled/entry_points/scheduler.py 20-70, cluster.py 16-62, top.py 35-41) -/
def setDefault (d : Dict Tok Val) (a : Arg) : Dict Tok Val :=
  match a.default with
  | some v => d.set a.dest v
  | none => d

/-- The namespace before parsing (`parse_known_args`) (CPython `Lib/argparse.py`; used by scaled/entry_points/scheduler.py 20-70, cluster.py 16-62, top.py 35-41). -/
def defaults (opts : List Arg) : Dict Tok Val := opts.foldl setDefault Dict.empty

/-- `parser.parse_args()` (CPython `Lib/argparse.py`; used by scaled/entry_points/scheduler.py 20-70, cluster.py 16-62, top.py 35-41) -/
def parseArgs (opts : List Arg) (pos : Arg) (toks : List Tok) : Except Stop (Dict Tok Val) := parseToks opts pos toks (defaults opts)

/-- `args.name` where a number is expected; `AttributeError` if there is no such attribute (scaled/entry_points/scheduler.py 82-91, cluster.py 69-80, top.py 56-58). -/
def readInt (d : Dict Tok Val) (name : Tok) : Except Stop Int :=
  match d.get? name with
  | some (.int n) => .ok n
  | some _ => .error (.raised .typeError)
  | none => .error (.raised .attributeError)

/-- `args.name` where a text is expected (scaled/entry_points/scheduler.py 77, cluster.py 67-79, top.py 56). -/
def readText (d : Dict Tok Val) (name : Tok) : Except Stop Tok :=
  match d.get? name with
  | some (.text s) => .ok s
  | some _ => .error (.raised .typeError)
  | none => .error (.raised .attributeError)

/-- `args.name` where an address is expected (scaled/entry_points/scheduler.py 83, cluster.py 70). -/
def readAddress (d : Dict Tok Val) (name : Tok) : Except Stop ZmqConfig :=
  match d.get? name with
  | some (.address a) => .ok a
  | some _ => .error (.raised .typeError)
  | none => .error (.raised .attributeError)

end Verif.Cluster
