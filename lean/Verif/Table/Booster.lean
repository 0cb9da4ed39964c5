/-
  Model of the lookup booster of a table file (src/table_lookup_booster.h, .cc) and of reads and writes of the
  file that go through it.
-/
import Verif.Basic
import Mathlib.Order.Defs.LinearOrder

set_option linter.unusedSectionVars false

namespace Jungle
variable {K : Type} [DecidableEq K]

/-- `TableLookupBooster::Elem` (src/table_lookup_booster.h:35-64): hash, sequence number, offset.  A fresh
    element is all zero. -/
structure BElem where
  h : Nat := 0
  seq : Nat := 0
  off : Nat := 0

/-- A document of the file.  `purged` is the mark `fdb_del` leaves (src/table_file.cc:901-912). -/
structure BDoc (K : Type) where
  r : Rec K
  purged : Bool

/-- A table file: the documents in the order they were appended, the offset of a document is its position
    counted from 1 (offset 0 is the header of the file, no document starts there), and the elements of the
    booster. -/
structure BTab (K : Type) where
  docs : List (BDoc K)
  slots : List BElem

namespace BTab

/-- `fdb_get_byoffset_raw`: the document at an offset, removed or not. -/
def docAt (docs : List (BDoc K)) (off : Nat) : Option (BDoc K) := if off = 0 then none else docs[off - 1]?

/-- The newest document of a key with its offset: what the index of the file points to. -/
def newest : List (BDoc K) → K → Option (Nat × BDoc K)
  | [], _ => none
  | d :: ds, k =>
    match newest ds k with
    | some x => some (x.1 + 1, x.2)
    | none => if d.r.key = k then some (1, d) else none

/-- `fdb_get`: the newest document of the key, unless it is removed. -/
def search (docs : List (BDoc K)) (k : K) : Option (Nat × BDoc K) :=
  (newest docs k).filter (fun x => !x.2.purged)

/-- `TableLookupBooster::get` (src/table_lookup_booster.cc:45-56). -/
def look (slots : List BElem) (h : Nat) : Option Nat :=
  match slots[h % slots.length]? with
  | none => none
  | some e => if e.h = h then some e.off else none

/-- `TableLookupBooster::setIfNew` (src/table_lookup_booster.cc:58-71). -/
def setIfNew (slots : List BElem) (e : BElem) : List BElem :=
  match slots[e.h % slots.length]? with
  | none => slots
  | some x => if x.h = e.h ∧ e.seq ≤ x.seq then slots else slots.set (e.h % slots.length) e

/-- `TableFile::setSingle` (src/table_file.cc:797-937): the document, then the booster. -/
def set (hash : K → Nat) (t : BTab K) (r : Rec K) (purge : Bool) : BTab K :=
  { docs := t.docs ++ [⟨r, purge⟩]
    slots := setIfNew t.slots ⟨hash r.key, r.seq, t.docs.length + 1⟩ }

/-- The record a document is turned into (src/table_file.cc:1190-1194): a removed document becomes a
    tombstone. -/
def toRec (d : BDoc K) : Rec K := if d.purged then { d.r with type := .deletion } else d.r

/-- The normal search of `TableFile::get`: `fdb_get`, and the booster is told
    (src/table_file.cc:1146-1157). -/
def slow (hash : K → Nat) (t : BTab K) (k : K) : Option (Rec K) × BTab K :=
  match search t.docs k with
  | none => (none, t)
  | some x => (some (toRec x.2), { t with slots := setIfNew t.slots ⟨hash k, x.2.r.seq, x.1⟩ })

/-- The booster has a document of the key (src/table_file.cc:1122-1143). -/
def quick (hash : K → Nat) (t : BTab K) (k : K) : Option (BDoc K) :=
  ((look t.slots (hash k)).bind (docAt t.docs)).filter (fun d => decide (d.r.key = k))

/-- `TableFile::get` without a snapshot, of the whole record, with the booster
    (src/table_file.cc:1114-1160,1190-1196). -/
def get (hash : K → Nat) (t : BTab K) (k : K) : Option (Rec K) × BTab K :=
  match quick hash t k with
  | some d => (some (toRec d), t)
  | none => slow hash t k

/-- `TableFile::get` of a file that has no booster. -/
def getPlain (t : BTab K) (k : K) : Option (Rec K) := (search t.docs k).map (fun x => toRec x.2)

/-- A new file (src/table_file.cc:355-359,399-400) with `n` elements. -/
def fresh (n : Nat) : BTab K := ⟨[], List.replicate n {}⟩

/-! ### readers and a writer at the same time -/

/-- Where a reader is.  `floor` is bookkeeping: the newest version of the key whose `setSingle` had returned when
    the read began. -/
inductive RPc (K : Type)
  | idle
  | started (k : K) (floor : Option (BDoc K))
  | hit (k : K) (floor : Option (BDoc K)) (off : Nat)
  | miss (k : K) (floor : Option (BDoc K))
  | fill (k : K) (floor : Option (BDoc K)) (off : Nat) (d : BDoc K)
  | done (k : K) (floor : Option (BDoc K)) (res : Option (Rec K))

/-- The file, the write in progress (the document is in, the booster does not know it yet), and the readers.
    One thread at a time writes to a file. -/
structure BSt (K : Type) where
  t : BTab K
  pend : Option (Rec K × Nat)
  rd : Nat → RPc K

/-- The documents whose `setSingle` has returned. -/
def BSt.completed (s : BSt K) : List (BDoc K) := if s.pend = none then s.t.docs else s.t.docs.dropLast

def upd (f : Nat → RPc K) (i : Nat) (p : RPc K) : Nat → RPc K := fun j => if j = i then p else f j

/-- One step: the accesses to the index of the file and to the booster are atomic (locks of ForestDB and
    src/table_lookup_booster.cc:49,62), nothing else is. -/
inductive BStep (hash : K → Nat) : BSt K → BSt K → Prop
  /-- `fdb_set` or `fdb_del` (src/table_file.cc:911,914) of a version newer than those in the file -/
  | write (s) (r : Rec K) (purge) (hp : s.pend = none) (hn : ∀ d ∈ s.t.docs, d.r.key = r.key → d.r.seq < r.seq) :
      BStep hash s { s with t := { s.t with docs := s.t.docs ++ [⟨r, purge⟩] }, pend := some (r, s.t.docs.length + 1) }
  /-- the booster is told (src/table_file.cc:931-934) -/
  | publish (s) (r : Rec K) (off) (hp : s.pend = some (r, off)) :
      BStep hash s { s with t := { s.t with slots := setIfNew s.t.slots ⟨hash r.key, r.seq, off⟩ }, pend := none }
  | start (s) (i) (k : K) (h : s.rd i = .idle) :
      BStep hash s { s with rd := upd s.rd i (.started k ((newest s.completed k).map (·.2))) }
  /-- the booster is asked (src/table_file.cc:1125) -/
  | look (s) (i) (k : K) (fl) (h : s.rd i = .started k fl) :
      BStep hash s { s with rd := upd s.rd i (match BTab.look s.t.slots (hash k) with
        | some off => .hit k fl off
        | none => .miss k fl) }
  /-- the document is read and its key compared (src/table_file.cc:1128-1143) -/
  | read (s) (i) (k : K) (fl off) (h : s.rd i = .hit k fl off) :
      BStep hash s { s with rd := upd s.rd i (match (docAt s.t.docs off).filter (fun d => decide (d.r.key = k)) with
        | some d => .done k fl (some (toRec d))
        | none => .miss k fl) }
  /-- `fdb_get` (src/table_file.cc:1150) -/
  | search (s) (i) (k : K) (fl) (h : s.rd i = .miss k fl) :
      BStep hash s { s with rd := upd s.rd i (match BTab.search s.t.docs k with
        | some x => .fill k fl x.1 x.2
        | none => .done k fl none) }
  /-- the booster is told (src/table_file.cc:1153-1155) -/
  | fill (s) (i) (k : K) (fl off d) (h : s.rd i = .fill k fl off d) :
      BStep hash s { s with t := { s.t with slots := setIfNew s.t.slots ⟨hash k, d.r.seq, off⟩ },
                            rd := upd s.rd i (.done k fl (some (toRec d))) }
  | leave (s) (i) (k : K) (fl res) (h : s.rd i = .done k fl res) : BStep hash s { s with rd := upd s.rd i .idle }

/-- Reachable from a new file with `n` elements in the booster. -/
inductive BReach (hash : K → Nat) (n : Nat) : BSt K → Prop
  | init : BReach hash n ⟨fresh n, none, fun _ => .idle⟩
  | step {s s'} : BReach hash n s → BStep hash s s' → BReach hash n s'

end BTab
end Jungle
