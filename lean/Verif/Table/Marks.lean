/-
  Model of the checkpoints that table files remember (`TableFile::chkMap`) and of opening a
  snapshot of the table section at a checkpoint.
-/
import Verif.Table.Lsm

set_option linter.unusedSectionVars false

namespace Jungle
variable {K : Type} [LinearOrder K] [OrderBot K]

/-- An entry of `TableFile::chkMap` (src/table_file.h): a checkpoint and the commit it belongs to.
    ForestDB finds the commit by its sequence number; here the contents of the table at that
    commit are kept directly. -/
structure Mark (K : Type) where
  chk : Nat
  recs : SMap K (Rec K)

/-- The sequence number of the commit (`fdb_get_kvs_seqnum`, src/table_file.cc:652): the highest
    number in the file, 0 if it is empty. -/
def Mark.seq (e : Mark K) : Nat := e.recs.foldl (fun m x => max m x.2.seq) 0

/-- `std::map::insert` of `chkMap` (src/table_file.cc:629): an entry that exists is kept. -/
def insertMark (chk : Nat) (recs : SMap K (Rec K)) : List (Mark K) → List (Mark K)
  | [] => [⟨chk, recs⟩]
  | e :: m =>
    if chk < e.chk then ⟨chk, recs⟩ :: e :: m
    else if chk = e.chk then e :: m
    else e :: insertMark chk recs m

/-- `TableFile::addCheckpoint` (src/table_file.cc:618-637): the oldest entries beyond the limit go. -/
def addCheckpoint (keep : Nat) (m : List (Mark K)) (chk : Nat) (recs : SMap K (Rec K)) : List (Mark K) :=
  let m' := insertMark chk recs m
  m'.drop (m'.length - keep)

/-- `TableFile::setCheckpoint` (src/table_file.cc:639-661): `recs` is what the table holds now,
    `next` the number of the record about to be written (none at the end), `prev` that of the one
    written last. -/
def setCheckpoint (keep : Nat) (recs : SMap K (Rec K)) (next : Option Nat) (prev : Nat) (all : Bool) :
    List Nat → List (Mark K) → List (Mark K)
  | [], m => m
  | chk :: cs, m =>
    let m' := if prev = chk ∨ (prev < chk ∧ next.any (fun n => decide (chk < n)) = true) ∨
        (prev ≤ chk ∧ all = true) then addCheckpoint keep m chk recs else m
    if prev < chk ∧ next.any (fun n => decide (n < chk)) = true then m'
    else setCheckpoint keep recs next prev all cs m'

/-- The variables of the loop of `TableFile::setBatch`. -/
structure MarkSt (K : Type) where
  tab : Tab K
  prev : Nat
  marks : List (Mark K)

/-- One turn of the loop of `TableFile::setBatch` for partition `p`
    (src/table_file.cc:956-998). -/
def markStep (c : TCfg K) (parts p keep : Nat) (cps : List Nat) (st : MarkSt K) (r : Rec K) : MarkSt K :=
  if c.hash r.key % parts ≠ p then st
  else
    let m := setCheckpoint keep st.tab.recs (some r.seq) st.prev false cps st.marks
    if r.isCmd then { st with marks := m }
    else ⟨st.tab.setSingle r false, r.seq, m⟩

/-- `TableFile::setBatch` (src/table_file.cc:939-1073) with the checkpoints.  Dropping the entries
    older than the oldest ForestDB commit (1052-1071) is the maintenance operation `forget`. -/
def markBatch (c : TCfg K) (parts p keep : Nat) (cps : List Nat) (x : Tab K) (m : List (Mark K))
    (R : List (Rec K)) : MarkSt K :=
  let st := R.foldl (markStep c parts p keep cps) ⟨x, 0, m⟩
  { st with marks := setCheckpoint keep st.tab.recs none st.prev true cps st.marks }

/-- The table section with the checkpoints of its level-0 files.  Tables of lower levels have no
    entries: `setBatch` is called for them in bulk-load mode without checkpoints
    (src/table_file_compaction.cc:87-346). The entry 0 that an in-place compaction adds
    (src/table_compaction.cc:660-757) is not modelled; in-place compaction is left out here. -/
structure CMgr (K : Type) where
  tab : TMgr K
  marks : Nat → List (Mark K)

namespace CMgr

/-- `setBatchHash` for one partition (src/table_set_batch.cc:199-296). -/
def setBatchPart (c : TCfg K) (keep : Nat) (t : CMgr K) (R : List (Rec K)) (cps : List Nat) (p : Nat) :
    CMgr K :=
  match TMgr.smallestNormal (t.tab.tablesByHash p) none with
  | none => t
  | some x =>
    let st := markBatch c t.tab.parts p keep cps x (t.marks x.number) R
    { tab := TMgr.setBatchPart c t.tab R p
      marks := fun n => if n = x.number then st.marks else t.marks n }

/-- `TableMgr::setBatch` (src/table_set_batch.cc:156-197). -/
def setBatch (c : TCfg K) (keep : Nat) (t : CMgr K) (R : List (Rec K)) (cps : List Nat) : CMgr K :=
  (List.range t.tab.parts).foldl (fun t p => setBatchPart c keep t R cps p) t

/-- Maintenance of the table section: compaction, split and merge as in `TMgr.Maint` (except in-place
    compaction and a change of the number of partitions), and dropping old checkpoints. -/
inductive Maint (c : TCfg K) : CMgr K → CMgr K → Prop
  | l0Begin (t : CMgr K) (p : Nat) (hp : p < t.tab.parts) : Maint c t ⟨t.tab.compactL0Begin p, t.marks⟩
  | l0End (t : CMgr K) (p : Nat) (full) (hp : p < t.tab.parts) : Maint c t ⟨t.tab.compactL0End c p full, t.marks⟩
  | l0Cancel (t : CMgr K) (p : Nat) (full done) (hp : p < t.tab.parts) :
      Maint c t ⟨t.tab.compactL0Cancel c p full done, t.marks⟩
  | level (t : CMgr K) (i n : Nat) (full refill) : Maint c t ⟨t.tab.compactLevel c i n full refill, t.marks⟩
  | levelCancel (t : CMgr K) (i n : Nat) (full done) : Maint c t ⟨t.tab.compactLevelCancel c i n full done, t.marks⟩
  | split (t : CMgr K) (i n : Nat) (cut) : Maint c t ⟨t.tab.splitOp i n cut, t.marks⟩
  | merge (t : CMgr K) (i n : Nat) : Maint c t ⟨t.tab.mergeOp c i n, t.marks⟩
  /-- the oldest `j` entries of table `n` go (src/table_file.cc:1052-1071) -/
  | forget (t : CMgr K) (n j : Nat) :
      Maint c t ⟨t.tab, fun i => if i = n then (t.marks n).drop j else t.marks i⟩

theorem Maint.same {c : TCfg K} {t t' : CMgr K} (hm : Maint c t t') (h : TMgr.Inv c t.tab) :
    TMgr.Same c t.tab t'.tab := by
  cases hm with
  | l0Begin p hp => exact TMgr.compactL0Begin_same h hp
  | l0End p full hp => exact TMgr.compactL0End_same h hp _
  | l0Cancel p full done hp => exact TMgr.compactL0Cancel_same h hp _ _
  | level => exact TMgr.compactLevel_same h _ _ _ _
  | levelCancel => exact TMgr.compactLevelCancel_same h _ _ _ _
  | split => exact TMgr.splitOp_same h _ _ _
  | merge => exact TMgr.mergeOp_same h _ _
  | forget => exact TMgr.Same.refl h

theorem setBatchPart_tab (c : TCfg K) (keep : Nat) (t : CMgr K) (R : List (Rec K)) (cps : List Nat) (p : Nat) :
    (setBatchPart c keep t R cps p).tab = TMgr.setBatchPart c t.tab R p := by
  unfold setBatchPart
  split
  · next h => unfold TMgr.setBatchPart; rw [h]
  · rfl

theorem foldl_tab (c : TCfg K) (keep : Nat) (R : List (Rec K)) (cps : List Nat) (ps : List Nat) (t : CMgr K) :
    (ps.foldl (fun t p => setBatchPart c keep t R cps p) t).tab =
      ps.foldl (fun t p => TMgr.setBatchPart c t R p) t.tab := by
  induction ps generalizing t with
  | nil => rfl
  | cons p ps ih => simp only [List.foldl_cons]; rw [ih, setBatchPart_tab]

theorem setBatch_tab (c : TCfg K) (keep : Nat) (t : CMgr K) (R : List (Rec K)) (cps : List Nat) :
    (setBatch c keep t R cps).tab = TMgr.setBatch c t.tab R := foldl_tab c keep R cps _ t

end CMgr

/-- The table section with checkpoints as the log and the handle see it; `keep` is
    `DBConfig::maxKeepingCheckpoints`. -/
def LsmC {K : Type} [LinearOrder K] [OrderBot K] (c : TCfg K) (parts : Nat) (h : 0 < parts) (keep : Nat) :
    TableSys K where
  T := CMgr K
  empty := ⟨TMgr.init parts, fun _ => []⟩
  Inv t := TMgr.Inv c t.tab
  get t k := t.tab.get c k
  setBatch t R cps := t.setBatch c keep R cps
  torn t R cps t' := ∃ ps : List Nat, ps.Nodup ∧ (∀ p ∈ ps, p < t.tab.parts) ∧
    t' = ps.foldl (fun t p => CMgr.setBatchPart c keep t R cps p) t
  reopen t := ⟨t.tab.reopen, t.marks⟩
  maint := CMgr.Maint c
  inv_empty := TMgr.inv_init c h
  get_empty := TMgr.get_init c h
  inv_setBatch t R cps hi _ := by rw [CMgr.setBatch_tab]; exact (TMgr.setBatch_ok hi R).1
  get_setBatch t R cps k hi _ := by
    rw [CMgr.setBatch_tab, (TMgr.setBatch_ok hi R).2.2 k]
    cases Spec.lastWrite R k <;> rfl
  torn_ok := by
    rintro t R cps t' hi _ ⟨ps, h1, h2, rfl⟩
    obtain ⟨k1, -, k3⟩ := TMgr.setBatchSome_ok hi R ps h1 h2
    rw [CMgr.foldl_tab]
    refine ⟨k1, fun k => ?_⟩
    rw [k3 k, CMgr.setBatch_tab, (TMgr.setBatch_ok hi R).2.2 k]
    split
    · exact Or.inr rfl
    · exact Or.inl rfl
  reopen_ok t hi := ⟨(TMgr.reopen_same hi).inv, (TMgr.reopen_same hi).vis⟩
  maint_ok t t' hi hm := ⟨(hm.same hi).inv, (hm.same hi).vis⟩

/-! ### Snapshots of the table section -/

/-- `TableFile::openSnapshot` (src/table_file.cc:545-602): `cur` is what the table holds, `m` its
    checkpoints; `none` is INVALID_CHECKPOINT, no handle is registered. -/
def openTable (cur : SMap K (Rec K)) (m : List (Mark K)) (chk : Nat) : Option (SMap K (Rec K)) :=
  match m.find? (fun e => decide (e.chk = chk)) with
  | some e => if e.seq = 0 then none else some e.recs
  | none =>
    match m.getLast? with
    | none => some cur
    | some e =>
      if e.seq < chk then some cur
      else match (m.filter (fun e => decide (e.chk ≤ chk))).getLast? with
        | none => none
        | some e => if e.seq = 0 then none else some e.recs

/-- The handles a snapshot has in the table files (`TableFile::snapHandles`): file number and
    contents, for level 0 and for each level below. -/
structure TSnap (K : Type) where
  l0 : List (Nat × SMap K (Rec K))
  lv : List (List (Nat × SMap K (Rec K)))

/-- `TableMgr::openSnapshot` (src/table_mgr.cc:505-531): every table of every level is asked; a
    table that refuses is passed over. -/
def CMgr.openSnapshot (t : CMgr K) (chk : Nat) : TSnap K :=
  { l0 := t.tab.l0.filterMap (fun x => (openTable x.recs (t.marks x.number) chk).map (fun m => (x.number, m)))
    lv := t.tab.lv.map (fun l => l.map (fun x => (x.number, x.recs))) }

/-- `TableFile::get` with a snapshot handle (src/table_file.cc:1076-1202): the error of a file in which
    the snapshot has no handle, or the record if there is one. -/
def snapRead (hs : List (Nat × SMap K (Rec K))) (x : Tab K) (k : K) : Except Status (Option (Rec K)) :=
  match hs.find? (fun e => decide (e.1 = x.number)) with
  | none => .error .snapshotNotFound
  | some e => .ok (e.2.find? k)

/-- The loop over the tables of a level in `TableMgr::get` (src/table_mgr.cc:602-637) on a snapshot.
    A record that is not newer than the one found before ends the search with status OK and no
    record. -/
def snapScan (hs : List (Nat × SMap K (Rec K))) (k : K) :
    List (Tab K) → Option (Rec K) → Except Status (Option (Rec K))
  | [], latest => .ok latest
  | x :: xs, latest =>
    match snapRead hs x k with
    | .error s => .error s
    | .ok none => snapScan hs k xs latest
    | .ok (some r) =>
      if latest.all (fun l => decide (l.seq < r.seq)) then snapScan hs k xs (some r) else .error .ok

/-- `TableMgr::get` on a snapshot for the levels below 0 (src/table_mgr.cc:571-646).  The tables are
    those of the current manifest. -/
def snapLevels (k : K) : List (List (Nat × SMap K (Rec K))) → List (List (Tab K)) →
    Except Status (Option (Rec K))
  | _, [] => .ok none
  | hs, l :: ls =>
    match snapScan (hs.headD []) k (TMgr.tablesPoint l k) none with
    | .error s => .error s
    | .ok (some r) => .ok (some r)
    | .ok none => snapLevels k hs.tail ls

/-- `TableMgr::get` on a snapshot (src/table_mgr.cc:559-656).  The tables are those of the current
    manifest, not those of the time when the snapshot was opened. -/
def CMgr.snapGet (c : TCfg K) (t : CMgr K) (sn : TSnap K) (k : K) : Except Status (Option (Rec K)) :=
  let ts := t.tab.tablesByHash (c.hash k % t.tab.parts)
  let sm := TMgr.smallestNormal ts none
  let first : Except Status (Option (Rec K)) := match sm with
    | none => .ok none
    | some x => snapRead sn.l0 x k
  match first with
  | .error s => .error s
  | .ok (some r) => .ok (some r)
  | .ok none =>
    match snapScan sn.l0 k (ts.filter (fun x => decide (some x.number ≠ sm.map (·.number)))) none with
    | .error s => .error s
    | .ok (some r) => .ok (some r)
    | .ok none => snapLevels k sn.lv t.tab.lv

/-- `TableMgr::getAvailCheckpoints` (src/table_mgr.cc:970-1013): the checkpoints every partition of
    level 0 has, in some table of the partition. -/
def CMgr.availCheckpoints (t : CMgr K) : List Nat :=
  let of := fun p => (t.tab.l0.filter (fun x => decide (x.hashNum = p))).flatMap
    (fun x => ((t.marks x.number).map (·.chk)).filter (fun n => decide (n ≠ 0)))
  (of 0).filter (fun n => (List.range t.tab.parts).all (fun p => (of p).contains n))

end Jungle
