/-
  The skiplist with one thread that inserts and readers that search at the same time.

  The writers of a memory table are one at a time (`writeMutex`, src/log_mgr.cc:616,705), the readers take no lock of the
  log.  A reader changes nothing but counts and the number of readers in a node's lock, so one reader stands for all.
  The steps are the accesses to shared pointers and flags.  What is left out: counts (nothing is removed here), the
  moment a writer waits for the readers inside a node's lock, and the search of the insertion is one step, because it
  changes nothing a reader can reach.
-/
import Verif.Index.SkipErase

set_option linter.unusedSectionVars false

namespace Jungle
namespace Skip
variable {K : Type} [LinearOrder K]

/-- Where `_skiplist_insert` is.  `link`: the layers below `l` are linked, the node's lock `accessing_next` is held
    (src/skiplist.cc:417,535-553); `count`: the node is fully linked, the numbers and flags are not updated yet
    (src/skiplist.cc:558-572). -/
inductive SWr
  | idle
  | link (i top l : Nat) (cur : SPtr) (prevs nexts : Nat → SPtr)
  | count (i top : Nat) (cur : SPtr) (prevs : Nat → SPtr)

/-- The end of an insertion after the node is fully linked (src/skiplist.cc:558-573). -/
def countUp (mx top : Nat) (cur : SPtr) (prevs : Nat → SPtr) (s : Skip K) : Skip K :=
  let le := fun l => if l = top then s.layerEntries l + 1 else s.layerEntries l
  let s := { s with
    entries := s.entries + 1
    layerEntries := le
    topLayer := retop mx le s.topLayer }
  (clrFlags s prevs top 0 (top + 1)).release cur

/-- Steps of the writer.  The last argument is the node that becomes visible. -/
inductive WStep (mx : Nat) : Skip K → SWr → Skip K → SWr → Option (Nat × K) → Prop
  | search {s i k top noDup cur prevs nexts s'} : s.linked i = false → top < mx →
      s.insSearch i k top noDup = some (.ready cur prevs nexts s') → WStep mx s .idle s' (.link i top 0 cur prevs nexts) none
  | refuse {s i k top noDup s'} : s.linked i = false → top < mx → s.insSearch i k top noDup = some (.dup s') →
      WStep mx s .idle s' .idle none
  | link {s i top l cur prevs nexts} : l ≤ top →
      WStep mx s (.link i top l cur prevs nexts)
        (if s.next (prevs l) l = nexts l then s.setNext (prevs l) l (.node i) else s) (.link i top (l + 1) cur prevs nexts) none
  | publish {s i top cur prevs nexts} :
      WStep mx s (.link i top (top + 1) cur prevs nexts)
        { s with linked := fun j => if j = i then true else s.linked j } (.count i top cur prevs) (some (i, s.key i))
  | count {s i top cur prevs} : WStep mx s (.count i top cur prevs) (s.countUp mx top cur prevs) .idle none

/-- A call of a reader: `_sl_find` with a mode, or, with `start`, `skiplist_next` of a node. -/
structure SAsk (K : Type) where
  q : Option K
  mode : Int
  start : Option Nat

/-- Where a reader is: before the load of a pointer, with a pointer, waiting for the lock of the node it points to. -/
inductive SRd
  | idle
  | load (layer : Nat) (cur : SPtr)
  | check (layer : Nat) (cur p : SPtr)
  | wait (layer : Nat) (cur p : SPtr)
  | done (r : Option SPtr)

/-- The beginning of `_sl_find` (src/skiplist.cc:609-619) or `skiplist_next` (src/skiplist.cc:978). -/
def SAsk.first (a : SAsk K) (s : Skip K) : SRd :=
  match a.start with
  | some i => .load 0 (.node i)
  | none => .load s.topLayer .head

/-- What is done with a fully linked next node (src/skiplist.cc:631-668,981-982). -/
def SAsk.decide (a : SAsk K) (s : Skip K) (layer : Nat) (cur nx : SPtr) : SRd :=
  if a.start.isSome then .done (if nx = .tail then none else some nx)
  else if s.cmpQ a.q nx = .gt then .load layer nx
  else if -1 ≤ a.mode ∧ a.mode ≤ 1 ∧ s.cmpQ a.q nx = .eq then .done (some nx)
  else if layer ≠ 0 then .load (layer - 1) cur
  else if a.mode < 0 ∧ cur ≠ .head then .done (some cur)
  else if 0 < a.mode ∧ nx ≠ .tail then .done (some nx)
  else .done none

/-- The write lock on a node's pointers (src/skiplist.cc:417,553); the lock on the node before is taken and given back
    in the step that changes its pointer. -/
def SWr.locked : SWr → SPtr → Bool
  | .link i _ _ _ _ _, p => p == .node i
  | _, _ => false

/-- A step of a reader (src/skiplist.cc:291-363,619-668); `none` means it waits or has ended.  A node that is not fully
    linked after its lock is free has been removed, then the search starts again (there are no removals here, and the
    other way of `skiplist_next`, for a removed node, is left out). -/
def SAsk.step (a : SAsk K) (s : Skip K) (w : SWr) : SRd → Option SRd
  | .load layer cur =>
    if w.locked cur then none
    else if s.valid cur = false then (if a.start.isSome then none else some (a.first s))
    else some (.check layer cur (s.next cur layer))
  | .check layer cur p => if s.valid p then some (a.decide s layer cur p) else some (.wait layer cur p)
  | .wait layer cur p =>
    if w.locked p then none
    else if s.valid p = false then (if a.start.isSome then none else some (a.first s))
    else some (.check layer cur (s.next p layer))
  | _ => none

end Skip
end Jungle
