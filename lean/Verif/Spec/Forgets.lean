import Verif.Spec.Residue
import Verif.System.System

/-!
# C101: how much a whole system keeps
-/

namespace Verif.Spec

open Verif.System

variable {F : Type}

/-- Nobody keeps anything for a task or graph: no client, not the scheduler, no worker. -/
structure NothingLeft (s : Sys F) : Prop where
  client : ∀ x c, s.peers x = .client c → Client.KeepsNothing c
  sched : NothingKept s.sched
  claims : NoClaims s.sched
  worker : ∀ w a ret qs left, s.peers w = .worker a ret qs left → Worker.Empty a

end Verif.Spec
