import Verif.Util.Logging

/-!
# What the arguments of `setup_logger` ask for
-/

namespace Verif.Spec

open Verif.Util

/-- The name stands for the screen. -/
def NamesScreen (name : Path) : Prop := name = "-".toList ∨ name = "/dev/stdout".toList

/-- The name stands for a socket. -/
def NamesSocket (name : Path) : Prop := ∃ rest, name = "tcp://".toList ++ rest

/-- Where the lines for this name should go. -/
def Goes (expand : Path → Path) (name : Path) (s : Sink) : Prop :=
  (NamesScreen name ∧ s = .screen) ∨ (¬ NamesScreen name ∧ s = .file (expand name))

/-- The levels by name, most important first: the names of the `logging` module and the short ones of the package. -/
inductive Level : List Char → Nat → Prop where
  | critical : Level "CRITICAL".toList 50
  | fatal : Level "FATAL".toList 50
  | ctic : Level "CTIC".toList 50
  | error : Level "ERROR".toList 40
  | eror : Level "EROR".toList 40
  | warning : Level "WARNING".toList 30
  | warn : Level "WARN".toList 30
  | info : Level "INFO".toList 20
  | debug : Level "DEBUG".toList 10
  | debg : Level "DEBG".toList 10
  | notset : Level "NOTSET".toList 0

end Verif.Spec
