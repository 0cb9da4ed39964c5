/-
  Opening an iterator on a handle (src/iterator.cc:29-99).
-/
import Verif.Iter.DBItr
import Verif.Table.Lsm

namespace Jungle
open Iter
variable {K : Type} [LinearOrder K] [OrderBot K] {c : TCfg K} {parts : Nat} {hp : 0 < parts}

/-- `Iterator::init(db, start_key, end_key)` (src/iterator.cc:29-99); `none`: no bound (an empty
    key).  Errors of reading a table file are not modelled. -/
def DB.keyItr (db : DB K (Lsm c parts hp)) (lo hi : Option K) : Status × Option (KeyIt K) :=
  if db.check .read ≠ .ok then (db.check .read, none)
  else (.ok, some (keyInit db.log (db.table : TMgr K) lo hi))

end Jungle
