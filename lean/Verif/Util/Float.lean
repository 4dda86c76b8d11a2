import Verif.Util.Decimal

/-!
# Floats behind the numbers that are displayed

CPython's `float` as far as `formatter.py`, `message.py` 317-345, `heartbeat_manager.py` 63-65 and `queued.py` 54-55 use it: positive numbers
below `2 ^ 53`, divided by or multiplied with a whole number.  A float is `m / 2 ^ k`.

Simplifications.
* No sign, no infinity, no numbers so small that they lose digits: loads and sizes are at least 0, and none that is
  above 0 is anywhere near `2 ^ -1022`.
* Numbers of `2 ^ 53` and more are not rounded.
-/

namespace Verif.Util

/-- `n / d` rounded to a whole number, half to even (IEEE 754 `roundTiesToEven`, and `round_half_even` of CPython's dtoa.c) (used by scaled/utility/formatter.py 16, 26, 36). -/
def halfEven (n d : Nat) : Nat :=
  if 2 * (n % d) < d then n / d
  else if d < 2 * (n % d) then n / d + 1
  else if n / d % 2 = 0 then n / d else n / d + 1

/-- The float `m / 2 ^ k` (used by scaled/utility/formatter.py 7-41, scaled/protocol/python/message.py 317-345, queued.py 54-55). -/
structure Float64 where
  m : Nat
  k : Nat
  deriving DecidableEq, Repr

/-- The power of two that makes `n / d` at least `2 ^ 52`; `fuel` bounds it (no Python counterpart; for `toFloat`). -/
def scale (n d : Nat) : (fuel k : Nat) → Nat
  | 0, k => k
  | fuel + 1, k => if n * 2 ^ k < 2 ^ 52 * d then scale n d fuel (k + 1) else k

/-- The float next to `n / d`: 53 binary digits, IEEE 754 (used by scaled/utility/formatter.py 10, 32, 36, scaled/protocol/python/message.py 317-345, queued.py 54). -/
def toFloat (n d : Nat) : Float64 :=
  if n = 0 then ⟨0, 0⟩
  else
    let k := scale n d (52 + d) 0
    ⟨halfEven (n * 2 ^ k) d, k⟩

/-- `x / c`, for example `number /= 1024.0` (formatter.py 10) and `cpu_percent() / 100` (heartbeat_manager.py 63) -/
def Float64.over (x : Float64) (c : Nat) : Float64 := toFloat x.m (2 ^ x.k * c)

/-- `x * c`, for example `self.agent_cpu * 1000` (message.py 317) -/
def Float64.times (x : Float64) (c : Nat) : Float64 := toFloat (x.m * c) (2 ^ x.k)

/-- `int(x)` (used by scaled/utility/formatter.py 14 and 39, scaled/protocol/python/message.py 317-320) -/
def Float64.int (x : Float64) : Nat := x.m / 2 ^ x.k

/-- `c > x` for a whole number `c`; CPython compares the exact values (floatobject.c `float_richcompare`) (used by scaled/scheduler/allocators/queued.py 55). -/
def Float64.below (x : Float64) (c : Nat) : Bool := decide (x.m < c * 2 ^ x.k)

/-- `c - x` for a whole number `c` above `x`, for example `count - mean` (queued.py 55) -/
def Float64.from (c : Nat) (x : Float64) : Float64 := toFloat (c * 2 ^ x.k - x.m) (2 ^ x.k)

/-- `math.ceil(x)` (used by scaled/scheduler/allocators/queued.py 55) -/
def Float64.ceil (x : Float64) : Nat := (x.m + 2 ^ x.k - 1) / 2 ^ x.k

/-- `f"{x:.1f}"`: the exact value of the float rounded to tenths (used by scaled/utility/formatter.py 16 and 36). -/
def Float64.tenths (x : Float64) : List Char :=
  let t := halfEven (10 * x.m) (2 ^ x.k)
  dec (t / 10) ++ ['.'] ++ dec (t % 10)

/-- `format_percentage` (formatter.py 25-26): `f"{x:.1%}"` is `f"{x * 100:.1f}%"` (CPython formatter_unicode.c `format_float_internal`). -/
def formatPercentage (x : Float64) : List Char := (x.times 100).tenths ++ ['%']

/-- `number /= 1024.0`, `i` times (formatter.py 8-11), from a whole number -/
def divided (n : Nat) : Nat → Float64
  | 0 => toFloat n 1
  | i + 1 => (divided n i).over 1024

/-- What `cpu_percent()` of psutil gives: a number of tenths, rounded by `round(…, 1)` (used by scaled/worker/agent/heartbeat_manager.py 63-65, scaled/scheduler/status_reporter.py 23-26). -/
def measuredCpu (n : Nat) : Float64 := toFloat n 10

/-- The load in a heartbeat: `cpu_percent() / 100` (heartbeat_manager.py 63, 65); so is the load of the scheduler in its status
(status_reporter.py 25), which JSON text does not change -/
def heartbeatCpu (n : Nat) : Float64 := (measuredCpu n).over 100

/-- What is written: `int(self.agent_cpu * 1000)` (message.py 317, 319) -/
def wireCpu (x : Float64) : Nat := (x.times 1000).int

/-- What is read: `float(agent_cpu / 1000)` (message.py 343, 345) -/
def readCpu (k : Nat) : Float64 := toFloat k 1000

end Verif.Util
