import Verif.Base.Dict
import Verif.Util.Float

/-!
# `scaled/utility/logging/{utility,scoped_logger,decorators}.py`

Simplifications:
* `os.path.expandvars(os.path.expanduser(path))` is a parameter `expand`; opening the file works.
* `logging.config.dictConfig` is taken as: make the handlers, then give the root logger the handlers of its list, each once.
* The texts of the lines are left out, apart from the duration of a `TimedLogger`.
* A number of nanoseconds of `2 ^ 53` and more (104 days) is not rounded before it is divided (`Util/Float`).
-/

namespace Verif.Util

/-- A file name (scaled/utility/logging/utility.py 14-17) -/
abbrev Path := List Char

/-- `LogType`, utility.py 8-11 -/
inductive LogType where
  | screen | file | zmq
  deriving DecidableEq

/-- `__detect_log_types`, utility.py 35-42 -/
def detectLogType (name : Path) : LogType :=
  if name = ['-'] ∨ name = "/dev/stdout".toList then .screen
  else if name.take 6 = "tcp://".toList then .zmq
  else .file

/-- Where a handler writes to (scaled/utility/logging/utility.py 110-126). -/
inductive Sink where
  | screen
  | file (path : Path)
  deriving DecidableEq

/-- The formatter of a handler, utility.py 56-74 -/
inductive Layout where
  | standard | verbose
  deriving DecidableEq

/-- An entry of `config["handlers"]`, utility.py 109-127 -/
structure LogHandler where
  sink : Sink
  level : List Char
  layout : Layout
  deriving DecidableEq

/-- The part of the configuration that depends on the arguments: `config["handlers"]` and the handlers of the root logger (scaled/utility/logging/utility.py 75-76 and 87-89). -/
structure LogConfig where
  handlers : Dict (List Char) LogHandler
  root : List (List Char)

/-- One turn of the loop utility.py 91-105. -/
def addLogPath (expand : Path → Path) (level : List Char) (c : LogConfig) (name : Path) : Py LogConfig :=
  match detectLogType name with
  | .screen => .ok ⟨c.handlers.set "console".toList ⟨.screen, level, .standard⟩, c.root ++ ["console".toList]⟩
  | .file => .ok ⟨c.handlers.set name ⟨.file (expand name), level, .verbose⟩, c.root ++ [name]⟩
  | .zmq => .error .notImplemented

/-- `for log_path in log_paths`, utility.py 91-105 -/
def addLogPaths (expand : Path → Path) (level : List Char) : List Path → LogConfig → Py LogConfig
  | [], c => .ok c
  | name :: names, c => do addLogPaths expand level names (← addLogPath expand level c name)

/-- The names of levels the `logging` module knows after utility.py 80-84. -/
def logLevel (name : List Char) : Option Nat :=
  if name = "CRITICAL".toList ∨ name = "FATAL".toList ∨ name = "CTIC".toList then some 50
  else if name = "ERROR".toList ∨ name = "EROR".toList then some 40
  else if name = "WARNING".toList ∨ name = "WARN".toList then some 30
  else if name = "INFO".toList then some 20
  else if name = "DEBUG".toList ∨ name = "DEBG".toList then some 10
  else if name = "NOTSET".toList then some 0
  else none

/-- `dictConfig`: `ValueError` if the level of a handler is not known or the root logger names a handler that does not exist (scaled/utility/logging/utility.py 107). -/
def installHandlers (handlers : Dict (List Char) LogHandler) : List (List Char) → List (List Char) → Py (List (Nat × LogHandler))
  | [], _ => .ok []
  | k :: ks, seen =>
    if k ∈ seen then installHandlers handlers ks seen
    else do
      let h ← orRaise (handlers.get? k) .valueError
      let n ← orRaise (logLevel h.level) .valueError
      let rest ← installHandlers handlers ks (k :: seen)
      return (n, h) :: rest

/-- `setup_logger`, utility.py 29-32 with 77-107: the handlers of the root logger with their levels -/
def setupLogger (expand : Path → Path) (names : List Path) (level : List Char) : Py (List (Nat × LogHandler)) := do
  let c ← addLogPaths expand level names ⟨Dict.empty, []⟩
  installHandlers c.handlers c.root []

/-- `logging.log(n, …)` on the root logger, whose level is `DEBUG` (utility.py 73): the handlers that write it. -/
def logged (installed : List (Nat × LogHandler)) (n : Nat) : List LogHandler :=
  if n ≥ 10 then (installed.filter fun p => decide (n ≥ p.1)).map (·.2) else []

/-- `TimedLogger`, scoped_logger.py 18-22 -/
structure TimedLogger where
  timer : Option Nat
  deriving DecidableEq

/-- `datetime.timedelta(seconds=…, milliseconds=…, microseconds=…)` (scaled/utility/logging/scoped_logger.py 30-32) -/
structure Duration where
  seconds : Nat
  milliseconds : Nat
  microseconds : Nat
  deriving DecidableEq

/-- `begin`, scoped_logger.py 24-26 -/
def TimedLogger.begin (_ : TimedLogger) (now : Nat) : TimedLogger := ⟨some now⟩

/-- `end`, scoped_logger.py 28-33: the divisions are those of floats, `%` is exact; without `begin` it is `TypeError` -/
def TimedLogger.finish (t : TimedLogger) (now : Nat) : Py Duration := do
  let start ← orRaise t.timer .typeError
  let elapsed := now - start
  return ⟨(toFloat elapsed 1000000000).int, (toFloat (elapsed % 1000000000) 1000000).int, (toFloat (elapsed % 1000000) 1000).int⟩

/-- What a `TimedLogger` writes (scaled/utility/logging/scoped_logger.py 24-33). -/
inductive TimedLine where
  | beginning
  | completed (d : Duration)
  deriving DecidableEq

/-- `with ScopedLogger(…): f()`, scoped_logger.py 7-15, and the wrapper of `log_function`, decorators.py 12-16: the lines
and what comes out; `start` and `stop` are the readings of the clock. -/
def withScope {α : Type} (start stop : Nat) (f : Py α) : List TimedLine × Py α :=
  let t := TimedLogger.begin ⟨none⟩ start
  match t.finish stop with
  | .ok d => ([.beginning, .completed d], f)
  | .error e => ([.beginning], .error e)

end Verif.Util
