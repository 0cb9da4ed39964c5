/-
  The table manifest file (src/table_manifest.cc), the DB manifest
  (src/db_manifest.cc) and the metadata stored with each table record
  (src/table_file.cc:663-795).
-/
import Verif.Codec.Frame

namespace Jungle

/-! ## Table manifest -/

/-- What is recorded of a table (src/table_manifest.h:43-165).  Only level-0
tables use `hashNum`, only deeper ones `minKey`.  `status`: 0 normal, 1 source
of a compaction, 2 incomplete destination. `chks`: checkpoints and the commit
numbers of the table file, ascending. -/
structure TabEnt where
  number : Nat
  hashNum : Nat
  status : Nat
  minKey : Bytes
  chks : List (Nat × Nat)
deriving DecidableEq

structure TabMani where
  maxTable : Nat
  levels : List (List TabEnt)
deriving DecidableEq

namespace TabMani

/-- src/table_manifest.cc:27-28 -/
def footer : Bytes := [0xaa, 0xbb, 0xcc, 0xdd, 0xee, 0xff, 0xab, 0xef]

/-- `TableFile::appendCheckpoints` (src/table_file.cc:1581-1592) -/
def encChks (cs : List (Nat × Nat)) : Bytes :=
  be 4 cs.length ++ cs.flatMap fun c => be 8 c.1 ++ be 8 c.2

/-- one entry (src/table_manifest.cc:323-351); incomplete tables are skipped -/
def encEnt (level : Nat) (t : TabEnt) : Bytes :=
  if t.status = 2 then []
  else
    be 8 t.number ++
    (if level = 0 then be 4 8 ++ be 4 t.hashNum ++ be 4 t.status
     else be 4 t.minKey.length ++ t.minKey) ++
    encChks t.chks

/-- one level (src/table_manifest.cc:302-366): the count written finally is the
number of tables in the list, incomplete ones included -/
def encLevel (level : Nat) (ts : List TabEnt) : Bytes := be 4 ts.length ++ ts.flatMap (encEnt level)

def encLevels : Nat → List (List TabEnt) → Bytes
  | _, [] => []
  | i, l :: ls => encLevel i l ++ encLevels (i + 1) ls

/-- `TableManifest::store` (src/table_manifest.cc:282-403): what the file holds
after the final truncation. -/
def enc (m : TabMani) : Bytes :=
  frame footer 1 (be 8 m.maxTable ++ be 4 m.levels.length ++ encLevels 0 m.levels)

def getPair (bs : Bytes) : Option ((Nat × Nat) × Bytes) :=
  match getU 8 bs with
  | none => none
  | some (a, r) => match getU 8 r with
    | none => none
    | some (b, r) => some ((a, b), r)

/-- `TableFile::loadCheckpoints` (src/table_file.cc:1594-1605) -/
def getChks (bs : Bytes) : Option (List (Nat × Nat) × Bytes) :=
  match getU 4 bs with
  | none => none
  | some (n, r) => parseN getPair n r

/-- reading one entry (src/table_manifest.cc:179-219) -/
def getEnt (level : Nat) (bs : Bytes) : Option (TabEnt × Bytes) :=
  match getU 8 bs with
  | none => none
  | some (num, r) => match getU 4 r with
    | none => none
    | some (ksize, r) =>
      if level = 0 then
        match (if ksize ≥ 4 then getU 4 r else some (0, r)) with
        | none => none
        | some (h, r) => match (if ksize ≥ 8 then getU 4 r else some (0, r)) with
          | none => none
          | some (st, r) => match getChks r with
            | none => none
            | some (cs, r) => some (⟨num, h, st, [], cs⟩, r)
      else
        match takeN ksize r with
        | none => none
        | some (k, r) => match getChks r with
          | none => none
          | some (cs, r) => some (⟨num, 0, 0, k, cs⟩, r)

def getLevel (level : Nat) (bs : Bytes) : Option (List TabEnt × Bytes) :=
  match getU 4 bs with
  | none => none
  | some (n, r) => parseN (getEnt level) n r

def getLevels : Nat → Nat → Bytes → Option (List (List TabEnt) × Bytes)
  | _, 0, bs => some ([], bs)
  | i, n + 1, bs => match getLevel i bs with
    | none => none
    | some (l, r) => match getLevels (i + 1) n r with
      | none => none
      | some (ls, r) => some (l :: ls, r)

/-- `TableManifest::load` (src/table_manifest.cc:115-272) without the opening of
the table files and the repair of minimum keys it does with them. -/
def load (file : Bytes) : Except Status TabMani :=
  match checkFrame footer file with
  | .ok => match getU 8 file with
    | none => .error .fileCorruption
    | some (mx, r) => match getU 4 r with
      | none => .error .fileCorruption
      | some (n, r) => match getLevels 0 n r with
        | none => .error .fileCorruption
        | some (ls, _) => .ok ⟨mx, ls⟩
  | s => .error s

/-- Every number fits its field; tables of level 0 have no minimum key, tables
of deeper levels no hash number and normal status; no table is incomplete
(the code never gives a table that status). -/
def EntOk (level : Nat) (t : TabEnt) : Prop :=
  t.number < 2 ^ 64 ∧ t.status ≠ 2 ∧ t.chks.length < 2 ^ 32 ∧ (∀ c ∈ t.chks, c.1 < 2 ^ 64 ∧ c.2 < 2 ^ 64) ∧
  if level = 0 then t.hashNum < 2 ^ 32 ∧ t.status < 2 ^ 32 ∧ t.minKey = []
  else t.minKey.length < 2 ^ 32 ∧ t.hashNum = 0 ∧ t.status = 0

def LevelsOk : Nat → List (List TabEnt) → Prop
  | _, [] => True
  | i, l :: ls => l.length < 2 ^ 32 ∧ (∀ t ∈ l, EntOk i t) ∧ LevelsOk (i + 1) ls

def Ok (m : TabMani) : Prop := m.maxTable < 2 ^ 64 ∧ m.levels.length < 2 ^ 32 ∧ LevelsOk 0 m.levels

/-- the file and its backup; `store` rewrites the whole file and, after a
successful fsync, copies it (src/table_manifest.cc:386-402,
src/internal_helper.cc:270-320) -/
structure Disk where
  file : Bytes
  bak : Option Bytes

def store (d : Disk) (m : TabMani) (synced : Bool) : Disk :=
  let f := ftruncate (pwrite d.file 0 m.enc) m.enc.length
  ⟨f, if synced then some (ftruncate (pwrite (d.bak.getD []) 0 f) f.length) else d.bak⟩

/-- `TableMgr::init` (src/table_mgr.cc:200-212) -/
def recover (file : Bytes) (bak : Option Bytes) : Except Status TabMani :=
  match load file with
  | .ok m => .ok m
  | .error _ => match bak with
    | none => .error .fileNotExist
    | some b => load b

def run (d : Disk) : List (TabMani × Bool) → Disk
  | [] => d
  | (m, s) :: rest => run (store d m s) rest

theorem footer_length : footer.length = 8 := rfl

theorem getPair_enc (c : Nat × Nat) (h : c.1 < 2 ^ 64 ∧ c.2 < 2 ^ 64) (r : Bytes) :
    getPair ((be 8 c.1 ++ be 8 c.2) ++ r) = some (c, r) := by
  unfold getPair
  rw [List.append_assoc, getU_be (by simpa using h.1)]
  simp only []
  rw [getU_be (by simpa using h.2)]

theorem getChks_enc (cs : List (Nat × Nat)) (hl : cs.length < 2 ^ 32) (h : ∀ c ∈ cs, c.1 < 2 ^ 64 ∧ c.2 < 2 ^ 64)
    (r : Bytes) : getChks (encChks cs ++ r) = some (cs, r) := by
  unfold getChks encChks
  rw [List.append_assoc, getU_be (by simpa using hl)]
  simp only []
  exact parseN_enc cs (fun c hc r => getPair_enc c (h c hc) r) r

theorem getEnt_enc (level : Nat) (t : TabEnt) (h : EntOk level t) (r : Bytes) :
    getEnt level (encEnt level t ++ r) = some (t, r) := by
  obtain ⟨h1, h2, h3, h4, h5⟩ := h
  unfold getEnt encEnt
  rw [if_neg h2]
  simp only [List.append_assoc]
  rw [getU_be (by simpa using h1)]
  simp only []
  by_cases hz : level = 0
  · rw [if_pos hz] at h5
    obtain ⟨k1, k2, k3⟩ := h5
    simp only [hz, if_true, List.append_assoc]
    rw [getU_be (by omega)]
    simp only [ge_iff_le, Nat.le_refl, if_true, show 4 ≤ 8 by omega]
    rw [getU_be (by simpa using k1)]
    simp only []
    rw [getU_be (by simpa using k2)]
    simp only []
    rw [getChks_enc _ h3 h4]
    simp only [← k3]
  · rw [if_neg hz] at h5
    obtain ⟨k1, k2, k3⟩ := h5
    simp only [hz, if_false, List.append_assoc]
    rw [getU_be (by simpa using k1)]
    simp only []
    rw [takeN_append rfl]
    simp only []
    rw [getChks_enc _ h3 h4]
    have e : (⟨t.number, 0, 0, t.minKey, t.chks⟩ : TabEnt) = t := by cases t; simp_all
    simp only [e]

theorem getLevels_enc : ∀ (ls : List (List TabEnt)) (i : Nat), LevelsOk i ls → ∀ r,
    getLevels i ls.length (encLevels i ls ++ r) = some (ls, r) := by
  intro ls
  induction ls with
  | nil => intro i _ r; rfl
  | cons l ls ih =>
    intro i h r
    obtain ⟨h1, h2, h3⟩ := h
    rw [List.length_cons, getLevels, encLevels, List.append_assoc]
    have : getLevel i (encLevel i l ++ (encLevels (i + 1) ls ++ r)) = some (l, encLevels (i + 1) ls ++ r) := by
      unfold getLevel encLevel
      rw [List.append_assoc, getU_be (by simpa using h1)]
      exact parseN_enc l (fun t ht r => getEnt_enc i t (h2 t ht) r) _
    rw [this]
    simp only []
    rw [ih (i + 1) h3]

theorem load_enc {m : TabMani} (h : m.Ok) : load m.enc = .ok m := by
  unfold load
  rw [show checkFrame footer m.enc = .ok from checkFrame_frame _ _ _ footer_length]
  simp only []
  unfold enc frame
  simp only [List.append_assoc]
  rw [getU_be (by simpa using h.1)]
  simp only []
  rw [getU_be (by simpa using h.2.1)]
  simp only []
  rw [getLevels_enc _ _ h.2.2]

theorem store_file (d : Disk) (m : TabMani) (s : Bool) : (store d m s).file = m.enc := by
  simp only [store, pwrite_zero, ftruncate_append]

theorem store_bak (d : Disk) (m : TabMani) (s : Bool) : (store d m s).bak = if s then some m.enc else d.bak := by
  simp only [store, pwrite_zero, ftruncate_append]

theorem run_append (d : Disk) (a b : List (TabMani × Bool)) : run d (a ++ b) = run (run d a) b := by
  induction a generalizing d with
  | nil => rfl
  | cons p ps ih => exact ih _

theorem run_unsynced (d : Disk) (b : List (TabMani × Bool)) (h : ∀ p ∈ b, p.2 = false) :
    (run d b).bak = d.bak := by
  induction b generalizing d with
  | nil => rfl
  | cons p ps ih =>
    rw [run, ih _ fun q hq => h q (by simp [hq]), store_bak, h p (by simp)]; rfl

end TabMani

/-! ## DB manifest -/

/-- `DBManifest` (src/db_manifest.h, src/db_manifest.cc:31-36): the two maps and
the next identifier.  `ids` is `IDToName` in ascending order, `names` is
`NameToID`. -/
structure DbMani where
  maxId : Nat
  ids : List (Nat × Bytes)
  names : List (Bytes × Nat)
deriving DecidableEq

namespace DbMani

/-- src/db_manifest.cc:28-29 -/
def footer : Bytes := [0xaa, 0xbb, 0xcc, 0xdd, 0xee, 0xff, 0xab, 0xab]

/-- constructor (src/db_manifest.cc:31-36) -/
def empty : DbMani := ⟨1, [], []⟩

/-- insertion into a `std::map` / `std::unordered_map`: an existing key stays -/
def insertName (l : List (Bytes × Nat)) (n : Bytes) (i : Nat) : List (Bytes × Nat) :=
  if l.any (fun p => p.1 == n) then l else l ++ [(n, i)]

def insertId (l : List (Nat × Bytes)) (i : Nat) (n : Bytes) : List (Nat × Bytes) :=
  match l with
  | [] => [(i, n)]
  | p :: ps => if i < p.1 then (i, n) :: p :: ps else if i = p.1 then p :: ps else p :: insertId ps i n

/-- `getKVSID` (src/db_manifest.cc:211-221) -/
def getId (m : DbMani) (name : Bytes) : Option Nat :=
  (m.names.find? fun p => p.1 == name).map (·.2)

/-- `getKVSName` (src/db_manifest.cc:223-233) -/
def getName (m : DbMani) (id : Nat) : Option Bytes :=
  (m.ids.find? fun p => p.1 == id).map (·.2)

/-- `addNewKVS` (src/db_manifest.cc:193-209); `none`: ALREADY_EXIST -/
def add (m : DbMani) (name : Bytes) : Option DbMani :=
  match m.getId name with
  | some _ => none
  | none => some ⟨m.maxId + 1, insertId m.ids m.maxId name, insertName m.names name m.maxId⟩

/-- The part of `DBGroup::openDB` that finds or gives the identifier
(src/db_group.cc:116-127). -/
def openDB (m : DbMani) (name : Bytes) : DbMani × Option Nat :=
  match m.getId name with
  | some i => (m, some i)
  | none => match m.add name with
    | none => (m, none)
    | some m' => (m', m'.getId name)

/-- `DBManifest::store` (src/db_manifest.cc:135-191) -/
def enc (m : DbMani) : Bytes :=
  frame footer 1 (be 8 m.maxId ++ be 4 m.ids.length ++
    m.ids.flatMap fun p => be 8 p.1 ++ be 4 p.2.length ++ p.2)

/-- one entry (src/db_manifest.cc:119-130).  The name is copied into
`char kvs_name_buf[256]`, with a terminating zero at `name_len`, and then turned
into a `std::string` from the C string.  A length of 256 or more writes outside
the buffer: `none`. -/
def getEnt (bs : Bytes) : Option ((Nat × Bytes) × Bytes) :=
  match getU 8 bs with
  | none => none
  | some (i, r) => match getU 4 r with
    | none => none
    | some (n, r) =>
      if 256 ≤ n then none
      else match takeN n r with
        | none => none
        | some (name, r) => some ((i, name.takeWhile (· != 0)), r)

def insertAll (m : DbMani) : List (Nat × Bytes) → DbMani
  | [] => m
  | p :: ps => insertAll { m with names := insertName m.names p.2 p.1, ids := insertId m.ids p.1 p.2 } ps

/-- `DBManifest::load` (src/db_manifest.cc:68-133) -/
def load (file : Bytes) : Except Status DbMani :=
  match checkFrame footer file with
  | .ok => match getU 8 file with
    | none => .error .fileCorruption
    | some (mx, r) => match getU 4 r with
      | none => .error .fileCorruption
      | some (n, r) => match parseN getEnt n r with
        | none => .error .undefinedBehaviour
        | some (ps, _) => .ok (insertAll ⟨mx, [], []⟩ ps)
  | s => .error s

/-- `DB::open` (src/jungle.cc:121-127): the result of `load` is ignored; a new
`DBManifest` object is used as it is then. -/
def reopen (file : Bytes) : DbMani :=
  match load file with
  | .ok m => m
  | .error _ => empty

end DbMani

/-! ## Metadata of a table record -/

/-- `TableFile::InternalMeta` (src/table_file.h:358-365) -/
structure InternalMeta where
  isTombstone : Bool := false
  isCompressed : Bool := false
  originalValueLen : Nat := 0
deriving DecidableEq

namespace InternalMeta

/-- `TF_FLAG_TOMBSTONE`, `TF_FLAG_COMPRESSED` (src/table_file.h:322-324) -/
def flags (i : InternalMeta) : Nat := (if i.isTombstone then 1 else 0) + (if i.isCompressed then 2 else 0)

/-- `TableFile::userMetaToRawMeta` (src/table_file.cc:663-698) -/
def toRaw (umeta : Bytes) (i : InternalMeta) : Bytes :=
  be 1 1 ++ be 4 0 ++ be 4 i.flags ++ (if i.isCompressed then be 4 i.originalValueLen else []) ++ umeta

/-- `TableFile::rawMetaToUserMeta` (src/table_file.cc:700-738).  Reads beyond
the end give 0. -/
def fromRaw (raw : Bytes) : InternalMeta × Bytes :=
  if raw = [] then ({}, [])
  else
    let rd (w : Nat) (bs : Bytes) : Nat × Bytes := (getU w bs).getD (0, bs)
    let (ident, r) := rd 1 raw
    if ident ≠ 1 then ({}, raw)
    else
      let (_, r) := rd 4 r
      let (fl, r) := rd 4 r
      let tomb := fl.testBit 0
      let comp := fl.testBit 1
      if comp then
        let (len, r) := rd 4 r
        (⟨tomb, true, len⟩, r)
      else (⟨tomb, false, 0⟩, r)

/-- `TableFile::readInternalMeta` (src/table_file.cc:740-767) -/
def readInternal (raw : Bytes) : InternalMeta :=
  if raw = [] then {}
  else
    let rd (w : Nat) (bs : Bytes) : Nat × Bytes := (getU w bs).getD (0, bs)
    let (ident, r) := rd 1 raw
    if ident ≠ 1 then {}
    else
      let (_, r) := rd 4 r
      let (fl, r) := rd 4 r
      let tomb := fl.testBit 0
      let comp := fl.testBit 1
      if comp then
        let (len, _) := rd 4 r
        ⟨tomb, true, len⟩
      else ⟨tomb, false, 0⟩

/-- `TableFile::tfExtractFlags`, `tfIsTombstone` (src/table_file.cc:769-778) -/
def extractFlags (raw : Bytes) : Nat :=
  let rd (w : Nat) (bs : Bytes) : Nat × Bytes := (getU w bs).getD (0, bs)
  let (_, r) := rd 1 raw
  let (_, r) := rd 4 r
  (rd 4 r).1

end InternalMeta

end Jungle
