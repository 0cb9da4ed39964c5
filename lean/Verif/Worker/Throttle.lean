/-
  Model of the two throttling rules: the pause of writers when there are too many log files
  (`Flusher::calcGlobalThrottling`, src/flusher.cc:104-139, used by `LogMgr::execBackPressure`,
  src/log_mgr.cc:552-565) and the pause of compactions (`TableMgr::doCompactionThrottling`,
  src/table_mgr.cc:1129-1146).  Unsigned arithmetic wraps as in C++.
-/
import Verif.Basic

namespace Jungle.Throttle

/-- `LogThrottlingOptions` (include/libjungle/db_config.h:836-858), 32-bit numbers. -/
structure Opts where
  start : Nat
  limit : Nat
  maxMs : Nat
  deriving DecidableEq, Repr

def u32 (x : Nat) : Nat := x % 2 ^ 32
def u64 (x : Nat) : Nat := x % 2 ^ 64

/-- The value the flusher stores, given the number of log files and the old value; `none`: the
    division by zero of src/flusher.cc:118-121. -/
def next (o : Opts) (total old : Nat) : Option Nat :=
  if o.maxMs = 0 then some old
  else if total > o.start then
    let den := u32 (o.limit + (2 ^ 32 - o.start))
    if den = 0 then none
    else
      let v := u32 (u64 ((total - o.start) * o.maxMs) / den)
      some (if v > o.maxMs then o.maxMs else v)
  else some 0

/-- What a writer then sleeps for that reason (src/log_mgr.cc:556-564). -/
def pause (o : Opts) (cur : Nat) : Nat := if o.maxMs = 0 then 0 else cur

/-- The sleep of a compaction after `elapsed` ms of work (src/table_mgr.cc:1137-1143);
    `resolution` ms must have passed (`throttling_timer.timeout`). -/
def compactionSleep (resolution factor elapsed : Nat) : Nat :=
  if resolution ≠ 0 ∧ factor ≠ 0 ∧ resolution ≤ elapsed then
    let f := min factor 99
    u64 (elapsed * f) / (100 - f)
  else 0

end Jungle.Throttle
