/-
  Model of the merging iterator.  The same algorithm is written three times in the code:
  src/iterator.cc (a handle's iterator over the log section and the tables),
  src/log_iterator.cc (over the log files) and src/table_iterator.cc (over the tables).
  It is modelled once, over children of any kind.
-/
import Verif.Basic

namespace Jungle.Iter

/-- `next` or `prev`. -/
inductive Dir
  | fwd | bwd
  deriving DecidableEq, Repr

def Dir.opp : Dir → Dir
  | .fwd => .bwd
  | .bwd => .fwd

/-- Where `seekInternal` goes: `gotoBegin` (GREATER with an empty key), GREATER, SMALLER,
    `gotoEnd` (src/iterator.cc:385-402). -/
inductive Seek (O : Type)
  | first
  | ge (k : O)
  | le (k : O)
  | last
  deriving DecidableEq, Repr

/-- What a merging iterator calls on a child.  `step d`: `next`/`prev`; `left` is not code: it
    bounds the number of steps that are left in a direction and is used only as fuel. -/
structure Ops (σ E O : Type) where
  get : σ → Option E
  step : Dir → σ → Status × σ
  seek : Seek O → σ → Status × σ
  left : Dir → σ → Nat

/-- What the entries are ordered by.  BY_KEY: the key, and within a key the sequence number
    descending.  BY_SEQ: the sequence number (`rank` is then constant). -/
structure Par (E O : Type) where
  byKey : Bool
  ord : E → O
  rank : E → Nat

/-- `ItrItem` (src/db_internal.h:209-265, src/log_mgr.h:304-347, src/table_mgr.h:365-416).
    `id` stands for the address of the item, which breaks ties. -/
structure Item (σ E : Type) where
  id : Nat
  cur : σ
  last : E
  noPrev : Bool := false
  noNext : Bool := false
  deriving Repr

/-- An iterator: the AVL tree `curWindow` as the list of its items in order, and `windowCursor`.
    Only the `lastRec` of the item under the cursor is ever read, so that is what is kept. -/
structure Itr (σ E : Type) where
  win : List (Item σ E)
  cur : Option E
  deriving Repr

section
variable {σ E O : Type} [LinearOrder O]

/-- Strict order in a direction. -/
def dlt (d : Dir) (a b : O) : Prop := match d with
  | .fwd => a < b
  | .bwd => b < a

instance (d : Dir) (a b : O) : Decidable (dlt d a b) := by
  cases d <;> simp only [dlt] <;> exact inferInstance

namespace Item
/-- `flags & no_more_next` / `flags & no_more_prev`. -/
def flag (d : Dir) (x : Item σ E) : Bool := match d with
  | .fwd => x.noNext
  | .bwd => x.noPrev

/-- `flags |= no_more_next` / `no_more_prev`. -/
def setFlag (d : Dir) (x : Item σ E) : Item σ E := match d with
  | .fwd => { x with noNext := true }
  | .bwd => { x with noPrev := true }
end Item

variable (p : Par E O) (ops : Ops σ E O)

/-- `cmpKey` / `cmpSeq` of two items, "comes before" (src/db_internal.h:216-256,
    src/table_mgr.h:372-410, src/log_mgr.h:311-341).  The log version does not break ties; it
    never sees any. -/
def before (a b : Item σ E) : Bool :=
  if p.byKey then
    decide (p.ord a.last < p.ord b.last) ||
    (decide (p.ord a.last = p.ord b.last) &&
      (decide (p.rank b.last < p.rank a.last) ||
       (decide (p.rank a.last = p.rank b.last) && decide (b.id < a.id))))
  else
    decide (p.ord a.last < p.ord b.last) ||
    (decide (p.ord a.last = p.ord b.last) && decide (a.id < b.id))

/-- `avl_insert` into `curWindow`. -/
def ins (x : Item σ E) : List (Item σ E) → List (Item σ E)
  | [] => [x]
  | y :: l => if before p x y then x :: y :: l else y :: ins x l

/-- The window in the order in which `next` (`prev`) walks it. -/
def walk (d : Dir) (l : List (Item σ E)) : List (Item σ E) := match d with
  | .fwd => l
  | .bwd => l.reverse

/-- The loop that moves the children (src/iterator.cc:293-342 for `next`, 186-235 for `prev`;
    src/log_iterator.cc:329-360, 252-284; src/table_iterator.cc:282-318, 197-235).  `passed` are
    the items already left behind, in walking order.  `none`: out of fuel, or the child moved but
    has no record (an assertion). -/
def loop (d : Dir) (k : O) : Nat → List (Item σ E) → List (Item σ E) → Option (List (Item σ E))
  | 0, _, _ => none
  | _ + 1, passed, [] => some passed
  | n + 1, passed, x :: rest =>
    if x.flag d then loop d k n (passed ++ [x]) rest
    else if dlt d k (p.ord x.last) then some (passed ++ x :: rest)
    else match ops.step d x.cur with
      | (.ok, c) =>
        match ops.get c with
        | none => none
        | some e =>
          loop d k n []
            (walk d (ins p { x with cur := c, last := e, noPrev := false, noNext := false }
              (walk d (passed ++ rest))))
      | (_, c) => loop d k n (passed ++ [({ x with cur := c } : Item σ E).setFlag d]) rest

/-- Fuel for `loop`. -/
def weight (d : Dir) (x : Item σ E) : Nat := ops.left d x.cur + if x.flag d then 0 else 1
def total (d : Dir) (l : List (Item σ E)) : Nat := (l.map (weight ops d)).sum
def fuel (d : Dir) (l : List (Item σ E)) : Nat := (total ops d l + 1) * (l.length + 1)

/-- `checkValidByKey` / `checkValidBySeq` (src/iterator.cc:575-603). -/
def validItem (d : Dir) (k : O) (x : Item σ E) : Bool :=
  !x.flag d && decide (p.ord x.last ≠ k)

/-- `moveToLastValid` (src/iterator.cc:404-436); the argument is the window backwards. -/
def lastValid : List (Item σ E) → Option E
  | [] => none
  | [x] => some x.last
  | x :: y :: l => if p.byKey && decide (p.ord x.last = p.ord y.last) then lastValid (y :: l)
                   else some x.last

/-- The search for the last valid item in `prev` BY_KEY (src/iterator.cc:240-256); the argument
    is the window backwards. -/
def scanPrev (k : O) : Option E → List (Item σ E) → Option E
  | lv, [] => lv
  | none, x :: l => scanPrev k (if validItem p .bwd k x then some x.last else none) l
  | some v, x :: l =>
    if p.ord x.last < p.ord v then some v
    else scanPrev k (if validItem p .bwd k x then some x.last else some v) l

/-- `next` (src/log_iterator.cc:321-389, src/table_iterator.cc:273-351, and one round of
    src/iterator.cc:283-383). -/
def next (it : Itr σ E) : Status × Itr σ E :=
  match it.cur with
  | none => (.undefinedBehaviour, it)
  | some e =>
    match loop p ops .fwd (p.ord e) (fuel ops .fwd it.win) [] it.win with
    | none => (.undefinedBehaviour, it)
    | some w =>
      match w.find? (validItem p .fwd (p.ord e)) with
      | some x => (.ok, { win := w, cur := some x.last })
      | none => (.outOfRange, { win := w, cur := lastValid p w.reverse })

/-- `prev` (src/log_iterator.cc:244-319, src/table_iterator.cc:188-271, and one round of
    src/iterator.cc:175-281). -/
def prev (it : Itr σ E) : Status × Itr σ E :=
  match it.cur with
  | none => (.undefinedBehaviour, it)
  | some e =>
    match loop p ops .bwd (p.ord e) (fuel ops .bwd it.win) [] it.win.reverse with
    | none => (.undefinedBehaviour, it)
    | some w =>
      match (if p.byKey then scanPrev p (p.ord e) none w
             else (w.find? (validItem p .bwd (p.ord e))).map (·.last)) with
      | some v => (.ok, { win := w.reverse, cur := some v })
      | none => (.outOfRange, { win := w.reverse, cur := w.reverse.head?.map (·.last) })

/-- Is the record of the item on the wrong side of the target (src/iterator.cc:490-516)?  Sets the
    flag. -/
def seekFlag (q : Seek O) (x : Item σ E) : Item σ E :=
  match q with
  | .first => { x with noPrev := false, noNext := false }
  | .ge k => { x with noPrev := false, noNext := decide (p.ord x.last < k) }
  | .le k => { x with noPrev := decide (k < p.ord x.last), noNext := false }
  | .last => { x with noPrev := false, noNext := false }

/-- One round of the loop of `seekInternal` (src/iterator.cc:462-520).  `none`: the child moved
    but has no record (an assertion; the table version tolerates it). -/
def seekItem (q : Seek O) (x : Item σ E) : Option (Item σ E) :=
  match ops.seek q x.cur with
  | (.ok, c) =>
    match ops.get c with
    | none => none
    | some e => some (seekFlag p q { x with cur := c, last := e })
  | (_, c) => some { x with cur := c, noPrev := true, noNext := true }

def seekAll (q : Seek O) : List (Item σ E) → Option (List (Item σ E))
  | [] => some []
  | x :: l =>
    match seekItem p ops q x, seekAll q l with
    | some y, some r => some (y :: r)
    | _, _ => none

/-- The cursor after a seek (src/iterator.cc:530-551). -/
def seekCur (q : Seek O) (w : List (Item σ E)) : Option E :=
  match q with
  | .first | .ge _ =>
    match w.find? (fun x => !x.noPrev && !x.noNext) with
    | some x => some x.last
    | none => w.reverse.head?.map (·.last)
  | .le _ | .last => lastValid p w.reverse

/-- `seekInternal` (src/log_iterator.cc:445-553, src/table_iterator.cc:406-500, and
    src/iterator.cc:438-551 up to the treatment of deleted keys). -/
def seek (q : Seek O) (it : Itr σ E) : Status × Itr σ E :=
  match seekAll p ops q it.win with
  | none => (.undefinedBehaviour, it)
  | some xs =>
    let w := xs.foldl (fun w x => ins p x w) []
    (.ok, { win := w, cur := seekCur p q w })

/-- `initInternal` once the children are open: those that have a record enter the window
    (`addLogFileItr`, src/log_iterator.cc:39-60; `addTableItr`, src/table_iterator.cc:38-65;
    src/iterator.cc:44-80). -/
def openAll (cs : List (Nat × σ)) : Itr σ E :=
  let w := cs.foldl (fun w c =>
    match ops.get c.2 with
    | some e => ins p { id := c.1, cur := c.2, last := e } w
    | none => w) []
  { win := w, cur := w.head?.map (·.last) }

/-- Not code: part of the measure `left`. -/
def bonus (d : Dir) (it : Itr σ E) : Nat :=
  match it.cur with
  | none => 0
  | some e => if it.win.all (fun x => x.flag d || decide (dlt d (p.ord e) (p.ord x.last))) then 1 else 0

/-- The merging iterator as a child of another one. -/
def mergeOps : Ops (Itr σ E) E O where
  get := fun it => it.cur
  step := fun d it => match d with
    | .fwd => next p ops it
    | .bwd => prev p ops it
  seek := fun q it => seek p ops q it
  left := fun d it => 2 * total ops d it.win + bonus p d it

end
end Jungle.Iter
