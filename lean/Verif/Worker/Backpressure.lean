/-
  Model of the back pressure of one database: how the rate that writers are slowed down to is chosen
  after a flush (`LogMgr::adjustThrottling`, `LogMgr::adjustThrottlingExtreme`,
  src/log_mgr.cc:1595-1721), and how long a writer sleeps then (`LogMgr::execBackPressure`,
  src/log_mgr.cc:567-596).  Floating point numbers are exact fractions here.
-/
import Mathlib.Tactic.Linarith
import Mathlib.Tactic.NormNum
import Mathlib.Tactic.Positivity
import Mathlib.Tactic.FieldSimp
import Mathlib.Data.Rat.Cast.Order
import Mathlib.Algebra.Order.Field.Rat

namespace Jungle.Throttle

/-- The options of a database (include/libjungle/db_config.h:275-290) and
    `flusherMinLogFilesToTrigger` (686-689). -/
structure BackOpts where
  threshold : Nat := 10000
  soft : Nat := 16
  hard : Nat := 128
  trigger : Nat := 16
  logOnly : Bool := false
  deriving DecidableEq, Repr

/-- `LogMgr::adjustThrottlingExtreme` (src/log_mgr.cc:1706-1721). -/
def extreme (o : BackOpts) (numLogs : Nat) (rate : ℚ) : ℚ :=
  if o.logOnly then rate
  else if numLogs ≤ 128 then rate
  else
    let target : ℚ := 10000 / (numLogs - 128 : Nat)
    if rate = 0 then target else min target rate

/-- `LogMgr::adjustThrottling` (src/log_mgr.cc:1595-1672), records per second; 0 is no throttling.
    `flushed`: the records of the flush, `incoming`: records written per second since the flush before,
    `slowest`: the records flushed per second (`getSlowestMergeRate(false)`, 1681-1704), 0 if the flush
    took no measurable time. -/
def newRate (o : BackOpts) (numLogs flushed : Nat) (incoming slowest : ℚ) : ℚ :=
  let tooMany := decide (o.hard < numLogs)
  let slow := decide (o.soft < numLogs) && decide (0 < slowest) && decide (o.threshold < flushed) && decide (slowest < incoming)
  if tooMany || slow then
    if tooMany then extreme o numLogs slowest else slowest
  else 0

/-- The time in ms for which a rate has an effect (src/log_mgr.cc:572-579); `interval`: the ms between
    the last two flushes. -/
def effective (o : BackOpts) (numLogs interval : Nat) : Nat :=
  let e := min interval 5000
  if numLogs > o.trigger * 2 then e * (numLogs - o.trigger * 2) else e

/-- What a writer sleeps, in microseconds (src/log_mgr.cc:567-596): `age`: the ms since the rate was
    chosen, `elapsed`: the microseconds the write took.  Simplification: the sleep is not rounded down
    to whole microseconds. -/
def backPause (o : BackOpts) (numLogs interval age elapsed : Nat) (rate : ℚ) : ℚ :=
  if rate = 0 then 0
  else
    let eff := effective o numLogs interval
    if eff ≠ 0 ∧ age < eff then
      let exp := 1000000 / rate * (eff - age : Nat) / eff
      if 1 < exp - elapsed then exp - elapsed else 0
    else 0

end Jungle.Throttle
