/-
  Model of the skiplist (src/skiplist.h, src/skiplist.cc), which is the index of the log's memory table by key and
  by sequence number, of the log manifest, of the table manifest's tables of a level and of the file manager.

  Pointers are explicit: a node is an address, and its `next` array, flags and reference count are a memory.  This
  file is the behaviour of calls that do not overlap: an atomic compare-and-swap that fails and a retry (`goto`) would
  repeat for ever, they are the answer `none` here, and so is a loop that does not end.
-/
import Mathlib.Order.Defs.LinearOrder
import Mathlib.Order.Nat

set_option linter.unusedSectionVars false

namespace Jungle
variable {K : Type} [LinearOrder K]

/-- `skiplist_node*` (src/skiplist.h:54-62): the two sentinels of the list, and the nodes of the user. -/
inductive SPtr
  | head
  | tail
  | node (i : Nat)
  deriving DecidableEq

/-- `skiplist_raw` (src/skiplist.h:75-85) with the memory of the nodes.  `key` is what the comparison function looks
    at.  `accessing_next`, a lock, is always free between two calls and left out. -/
structure Skip (K : Type) where
  key : Nat → K
  next : SPtr → Nat → SPtr
  top : Nat → Nat
  linked : Nat → Bool
  removed : Nat → Bool
  busy : SPtr → Bool
  refs : SPtr → Nat
  entries : Nat
  layerEntries : Nat → Nat
  topLayer : Nat

namespace Skip

/-- `skiplist_init` (src/skiplist.cc:119-151).  `mem` is what is in memory before. -/
def init (mem : Skip K) : Skip K :=
  { mem with
    next := fun _ _ => .tail
    linked := fun _ => false
    busy := fun _ => false
    refs := fun _ => 0
    entries := 0
    layerEntries := fun _ => 0
    topLayer := 0 }

/-- `_sl_cmp` (src/skiplist.cc:222-230) of a query and a node.  The query is a key, or `none` for the address of the
    tail, which only `skiplist_end` passes (src/skiplist.cc:1001). -/
def cmpQ (s : Skip K) (q : Option K) : SPtr → Ordering
  | .head => .gt
  | .tail => if q.isNone then .eq else .lt
  | .node i =>
    match q with
    | none => .gt
    | some k => if k < s.key i then .lt else if s.key i < k then .gt else .eq

/-- `_sl_valid_node` (src/skiplist.cc:232-236); the sentinels are fully linked (src/skiplist.cc:147-149). -/
def valid (s : Skip K) : SPtr → Bool
  | .node i => s.linked i
  | _ => true

/-- `ATM_FETCH_ADD(p->ref_count, 1)`. -/
def grab (s : Skip K) (p : SPtr) : Skip K := { s with refs := fun x => if x = p then s.refs x + 1 else s.refs x }

/-- `ATM_FETCH_SUB(p->ref_count, 1)`. -/
def release (s : Skip K) (p : SPtr) : Skip K := { s with refs := fun x => if x = p then s.refs x - 1 else s.refs x }

def setBusy (s : Skip K) (p : SPtr) (b : Bool) : Skip K := { s with busy := fun x => if x = p then b else s.busy x }

def setNext (s : Skip K) (p : SPtr) (layer : Nat) (v : SPtr) : Skip K :=
  { s with next := fun x l => if x = p ∧ l = layer then v else s.next x l }

/-- The loop of `_sl_next` (src/skiplist.cc:334-356): nodes that are not fully linked, and the node that is to be
    erased, are passed. -/
def skipOver (s : Skip K) (layer : Nat) (avoid : Option SPtr) : Nat → SPtr → Bool → Option (SPtr × Bool)
  | 0, _, _ => none
  | f + 1, p, found =>
    if s.valid p = false ∨ some p = avoid then
      if s.valid p = false then none else skipOver s layer avoid f (s.next p layer) true
    else some (p, found)

/-- `_sl_next` (src/skiplist.cc:291-363).  The caller counts the reference to the result; those to the nodes passed
    are given back before it returns. -/
def slNext (s : Skip K) (cur : SPtr) (layer : Nat) (avoid : Option SPtr) : Option (SPtr × Bool) :=
  if s.valid cur then skipOver s layer avoid (s.entries + 2) (s.next cur layer) false else none

/-- The two loops of `_sl_find` (src/skiplist.cc:619-668). -/
def findLoop (q : Option K) (mode : Int) : Nat → Nat → SPtr → Skip K → Option (Option SPtr × Skip K)
  | 0, _, _, _ => none
  | f + 1, layer, cur, s =>
    match s.slNext cur layer none with
    | none => none
    | some (nx, _) =>
      if s.cmpQ q nx = .gt then findLoop q mode f layer nx ((s.grab nx).release cur)
      else if -1 ≤ mode ∧ mode ≤ 1 ∧ s.cmpQ q nx = .eq then some (some nx, (s.grab nx).release cur)
      else if layer ≠ 0 then findLoop q mode f (layer - 1) cur ((s.grab nx).release nx)
      else if mode < 0 ∧ cur ≠ .head then some (some cur, (s.grab nx).release nx)
      else if 0 < mode ∧ nx ≠ .tail then some (some nx, (s.grab nx).release cur)
      else some (none, ((s.grab nx).release cur).release nx)

/-- `_sl_find` (src/skiplist.cc:599-671): SM -2, SMEQ -1, EQ 0, GTEQ 1, GT 2. -/
def slFind (s : Skip K) (q : Option K) (mode : Int) : Option (Option SPtr × Skip K) :=
  findLoop q mode (s.entries + s.topLayer + 1) s.topLayer .head (s.grab .head)

/-- `skiplist_find` (src/skiplist.cc:673-677). -/
def find (s : Skip K) (k : K) : Option (Option SPtr × Skip K) := s.slFind (some k) 0
/-- `skiplist_find_smaller_or_equal` (src/skiplist.cc:679-683). -/
def findLe (s : Skip K) (k : K) : Option (Option SPtr × Skip K) := s.slFind (some k) (-1)
/-- `skiplist_find_greater_or_equal` (src/skiplist.cc:685-689). -/
def findGe (s : Skip K) (k : K) : Option (Option SPtr × Skip K) := s.slFind (some k) 1

/-- `skiplist_next` (src/skiplist.cc:948-985).  The reference to the tail is not given back. -/
def nextOf (s : Skip K) (i : Nat) : Option (Option SPtr × Skip K) :=
  match s.slNext (.node i) 0 none with
  | some (nx, _) => some (if nx = .tail then none else some nx, s.grab nx)
  | none =>
    match s.slFind (some (s.key i)) 2 with
    | none => none
    | some (r, s') => some (if r = some .tail then none else r, s')

/-- `skiplist_prev` (src/skiplist.cc:987-992). -/
def prevOf (s : Skip K) (i : Nat) : Option (Option SPtr × Skip K) :=
  match s.slFind (some (s.key i)) (-2) with
  | none => none
  | some (r, s') => some (if r = some .head then none else r, s')

/-- `skiplist_begin` (src/skiplist.cc:994-1001). -/
def begin' (s : Skip K) : Option (Option SPtr × Skip K) :=
  match s.slNext .head 0 none with
  | some (nx, _) => some (if nx = .tail then none else some nx, s.grab nx)
  | none => none

/-- `skiplist_end` (src/skiplist.cc:1003-1005). -/
def last (s : Skip K) : Option (Option SPtr × Skip K) :=
  match s.slFind none (-2) with
  | none => none
  | some (r, s') => some (if r = some .head then none else r, s')

/-- The loop over the layers at the end of an insertion or removal (src/skiplist.cc:560-565,864-869). -/
def retop (mx : Nat) (le : Nat → Nat) (old : Nat) : Nat := (((List.range mx).reverse.find? (fun l => 0 < le l))).getD old

/-- `_sl_clr_flags` (src/skiplist.cc:383-399), from `start` for `n` layers, `start + n` is one more than `top`. -/
def clrFlags (s : Skip K) (prevs : Nat → SPtr) (top : Nat) : Nat → Nat → Skip K
  | _, 0 => s
  | start, n + 1 =>
    let s' := if start = top ∨ prevs start ≠ prevs (start + 1) then s.setBusy (prevs start) false else s
    clrFlags s' prevs top (start + 1) n

/-- The flag on the node before (src/skiplist.cc:480-507,808-835): it is set unless the layer above has the same node
    before; the answer is `none` when another thread has set it or one of the nodes is not valid. -/
def lockPrev (s : Skip K) (layer top : Nat) (prevs : Nat → SPtr) (nx : SPtr) : Option (Skip K) :=
  let dup := layer < top ∧ prevs layer = prevs (layer + 1)
  if ¬ dup ∧ s.busy (prevs layer) = true then none
  else if (s.valid (prevs layer) && s.valid nx) = false then none
  else some (if dup then s else s.setBusy (prevs layer) true)

/-- The pointers of the nodes before are changed, layer 0 first, `n` layers (src/skiplist.cc:535-550). -/
def linkAll (i : Nat) (prevs nexts : Nat → SPtr) : Nat → Skip K → Skip K
  | 0, s => s
  | n + 1, s =>
    let s := linkAll i prevs nexts n s
    if s.next (prevs n) n = nexts n then s.setNext (prevs n) n (.node i) else s

/-- Initialisation of the node (src/skiplist.cc:96-117,414-417). -/
def initNode (s : Skip K) (i : Nat) (k : K) (top : Nat) : Skip K :=
  { s with
    key := fun j => if j = i then k else s.key j
    top := fun j => if j = i then top else s.top j
    linked := fun j => if j = i then false else s.linked j
    removed := fun j => if j = i then false else s.removed j
    busy := fun p => if p = .node i then false else s.busy p }

/-- The end of an insertion (src/skiplist.cc:533-573). -/
def insFinish (mx : Nat) (i top : Nat) (cur : SPtr) (prevs nexts : Nat → SPtr) (s : Skip K) : Skip K :=
  let s := linkAll i prevs nexts (top + 1) s
  let le := fun l => if l = top then s.layerEntries l + 1 else s.layerEntries l
  let s := { s with
    linked := fun j => if j = i then true else s.linked j
    entries := s.entries + 1
    layerEntries := le
    topLayer := retop mx le s.topLayer }
  (clrFlags s prevs top 0 (top + 1)).release cur

def put (f : Nat → SPtr) (l : Nat) (p : SPtr) : Nat → SPtr := fun x => if x = l then p else f x

/-- How the search of an insertion ends: the key is there, or the places of the node in all its layers are known. -/
inductive Prep (K : Type)
  | dup (s : Skip K)
  | ready (cur : SPtr) (prevs nexts : Nat → SPtr) (s : Skip K)

/-- The two loops of `_skiplist_insert` (src/skiplist.cc:432-532). -/
def insLoop (i : Nat) (k : K) (top : Nat) (noDup : Bool) :
    Nat → Nat → SPtr → (Nat → SPtr) → (Nat → SPtr) → Skip K → Option (Prep K)
  | 0, _, _, _, _, _ => none
  | f + 1, layer, cur, prevs, nexts, s =>
    match s.slNext cur layer none with
    | none => none
    | some (nx, _) =>
      if s.cmpQ (some k) nx = .gt then insLoop i k top noDup f layer nx prevs nexts ((s.grab nx).release cur)
      else
        let s := (s.grab nx).release nx
        if noDup = true ∧ s.cmpQ (some k) nx = .eq then
          some (.dup ((clrFlags s prevs top (layer + 1) (top - layer)).release cur))
        else if layer ≤ top then
          let prevs := put prevs layer cur
          let nexts := put nexts layer nx
          match lockPrev s layer top prevs nx with
          | none => none
          | some s =>
            let s := s.setNext (.node i) layer nx
            if (s.slNext cur layer none).map (·.1) ≠ some nx then none
            else if layer ≠ 0 then insLoop i k top noDup f (layer - 1) cur prevs nexts s
            else some (.ready cur prevs nexts s)
        else insLoop i k top noDup f (layer - 1) cur prevs nexts s

/-- The first part of `_skiplist_insert` (src/skiplist.cc:406-532): initialisation of the node and search. -/
def insSearch (s : Skip K) (i : Nat) (k : K) (top : Nat) (noDup : Bool) : Option (Prep K) :=
  let s := (s.initNode i k top).grab .head
  let l := max s.topLayer top
  insLoop i k top noDup (s.entries + l + 1) l .head (fun _ => .head) (fun _ => .tail) s

/-- The return code and the list at the end. -/
def Prep.finish (mx i top : Nat) : Prep K → Int × Skip K
  | .dup s => (-1, s)
  | .ready cur prevs nexts s => (0, insFinish mx i top cur prevs nexts s)

/-- `_skiplist_insert` (src/skiplist.cc:406-577) of the node at `i`, with the height `top` the dice give
    (src/skiplist.cc:365-380).  The answer is the return code. -/
def insert (mx : Nat) (s : Skip K) (i : Nat) (k : K) (top : Nat) (noDup : Bool) : Option (Int × Skip K) :=
  (s.insSearch i k top noDup).map (Prep.finish mx i top)

/-- The pointers of the nodes before are changed back, layer 0 first, `n` layers (src/skiplist.cc:841-857). -/
def unlinkAll (i : Nat) (prevs nexts : Nat → SPtr) : Nat → Skip K → Skip K
  | 0, s => s
  | n + 1, s =>
    let s := unlinkAll i prevs nexts n s
    if s.next (prevs n) n = .node i then s.setNext (prevs n) n (nexts n) else s

/-- The end of a removal (src/skiplist.cc:834-879). -/
def eraseFinish (mx : Nat) (i top : Nat) (cur : SPtr) (prevs nexts : Nat → SPtr) (s : Skip K) : Skip K :=
  let s := { s with linked := fun j => if j = i then false else s.linked j }
  let s := unlinkAll i prevs nexts (top + 1) s
  let le := fun l => if l = top then s.layerEntries l - 1 else s.layerEntries l
  let s := { s with
    entries := s.entries - 1
    layerEntries := le
    topLayer := retop mx le s.topLayer }
  ((clrFlags s prevs top 0 (top + 1)).release cur).setBusy (.node i) false

/-- The two loops of `skiplist_erase_node_passive` (src/skiplist.cc:739-833). -/
def eraseLoop (mx : Nat) (i top : Nat) :
    Nat → Nat → SPtr → (Nat → SPtr) → (Nat → SPtr) → Skip K → Option (Skip K)
  | 0, _, _, _, _, _ => none
  | f + 1, layer, cur, prevs, nexts, s =>
    match s.slNext cur layer (some (.node i)) with
    | none => none
    | some (nx, found) =>
      if (s.cmpQ (some (s.key i)) nx = .gt ∨ (layer ≤ top ∧ found = false)) then
        eraseLoop mx i top f layer nx prevs nexts ((s.grab nx).release cur)
      else
        let s := (s.grab nx).release nx
        if layer ≤ top then
          let prevs := put prevs layer cur
          let nexts := put nexts layer nx
          match lockPrev s layer top prevs nx with
          | none => none
          | some s =>
            if (s.slNext cur layer (some (.node i))).map (·.1) ≠ some nx then none
            else if layer ≠ 0 then eraseLoop mx i top f (layer - 1) cur prevs nexts s
            else some (eraseFinish mx i top cur prevs nexts s)
        else eraseLoop mx i top f (layer - 1) cur prevs nexts s

/-- `skiplist_erase_node` (src/skiplist.cc:691-896): the return code. -/
def erase (mx : Nat) (s : Skip K) (i : Nat) : Option (Int × Skip K) :=
  if s.removed i = true then some (-1, s)
  else if s.busy (.node i) = true then none
  else
    let s := { s.setBusy (.node i) true with removed := fun j => if j = i then true else s.removed j }
    if s.linked i = false then
      some (-3, { s.setBusy (.node i) false with removed := fun j => if j = i then false else s.removed j })
    else
      (eraseLoop mx i (s.top i) (s.entries + s.topLayer + 1) s.topLayer .head (fun _ => .head) (fun _ => .tail)
        (s.grab .head)).map (fun s => (0, s))

/-- `skiplist_is_safe_to_free` (src/skiplist.cc:921-930), which `skiplist_wait_for_free` waits for. -/
def safeToFree (s : Skip K) (i : Nat) : Bool := !s.busy (.node i) && s.removed i && (s.refs (.node i) == 0)

end Skip
end Jungle
