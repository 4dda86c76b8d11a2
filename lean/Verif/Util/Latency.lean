import Verif.Util.Float

/-!
# The float behind the latency of a heartbeat

`scaled/worker/agent/heartbeat_manager.py` 49.  `Worker/Agent.onEcho` computes the same number without floats.

The clock may have been set back between heartbeat and answer; then the time is negative, `-ns`.
-/

namespace Verif.Util

/-- `x // c` for a whole number `c`: CPython's `float_floor_div` takes the exact remainder away, divides, and takes the
whole number next to the quotient (used by scaled/worker/agent/heartbeat_manager.py 49). -/
def Float64.floorOver (x : Float64) (c : Nat) : Nat :=
  let r := x.m % (c * 2 ^ x.k)
  let q := (toFloat (x.m - r) (2 ^ x.k)).over c
  if 2 ^ q.k < 2 * (q.m % 2 ^ q.k) then q.int + 1 else q.int

/-- `int((ns / 2) // 1_000)`, heartbeat_manager.py 49 -/
def heartbeatLatency (ns : Nat) : Nat := (toFloat ns 2).floorOver 1000

/-- `-x // c`, without its sign: `float_floor_div` divides as above, takes one more if there was a remainder, and takes the whole number
next to that (used by scaled/worker/agent/heartbeat_manager.py 49). -/
def Float64.ceilOver (x : Float64) (c : Nat) : Nat :=
  let r := x.m % (c * 2 ^ x.k)
  let q := (toFloat (x.m - r) (2 ^ x.k)).over c
  let v := if r = 0 then q else toFloat (q.m + 2 ^ q.k) (2 ^ q.k)
  if 2 ^ v.k < 2 * (v.ceil * 2 ^ v.k - v.m) then v.ceil - 1 else v.ceil

/-- `int((-ns / 2) // 1_000)`, heartbeat_manager.py 49 -/
def heartbeatLatencyBack (ns : Nat) : Int := -((toFloat ns 2).ceilOver 1000 : Nat)

end Verif.Util
