import Verif.Worker.Pids

/-!
# What the operating system may do with numbers
-/

namespace Verif.Spec

open Verif.Worker Verif.Wire

/-- A number that a new process may get: no child has it that was not waited for, or will not be when the new process
is started. -/
def FreePid (k : Kin) (pid : Nat) : Prop := ∀ c ∈ k.children, c.ended = false → c.pid ≠ pid

/-- Everything that can happen to a worker and its children, with any numbers that are free. -/
inductive KinRuns (id : Bytes) (d start : Int) : Kin → Prop
  | init {pid : Nat} {k : Kin} (h : Kin.init d start pid = .ok k) : KinRuns id d start k
  | ends {k k' : Kin} (pid : Nat) (h : KinRuns id d start k) (hs : k.step id (.ends pid) = .ok k') : KinRuns id d start k'
  | worker {k k' : Kin} (op : POp) (pid : Nat) (h : KinRuns id d start k) (hf : FreePid k pid)
      (hs : k.step id (.worker op pid) = .ok k') : KinRuns id d start k'

end Verif.Spec
