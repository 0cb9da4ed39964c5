/-
  The log manifest file: src/log_manifest.cc.
-/
import Verif.Codec.Frame

namespace Jungle

/-- one log file's entry (src/log_manifest.cc:538-557) -/
structure LogEnt where
  num : Nat
  minSeq : Nat
  flushed : Nat
  synced : Nat
deriving DecidableEq

/-- what the log manifest records (src/log_manifest.cc:516-560) -/
structure LogMani where
  maxLog : Nat
  lastFlushed : Nat
  lastSynced : Nat
  files : List LogEnt
deriving DecidableEq

namespace LogMani

/-- src/log_manifest.cc:33-34 -/
def footer : Bytes := [0xaa, 0xbb, 0xcc, 0xdd, 0xee, 0xff, 0xab, 0xcd]
def version : Nat := 1

def encEnt (e : LogEnt) : Bytes := be 8 e.num ++ be 8 e.minSeq ++ be 8 e.flushed ++ be 8 e.synced

def body (m : LogMani) : Bytes :=
  be 8 m.maxLog ++ be 8 m.lastFlushed ++ be 8 m.lastSynced ++ be 4 m.files.length ++ m.files.flatMap encEnt

/-- The bytes `storeInternal` builds in `mani_buf` (src/log_manifest.cc:509-572). -/
def enc (m : LogMani) : Bytes := frame footer version m.body

def getEnt (bs : Bytes) : Option (LogEnt × Bytes) :=
  match getU 8 bs with
  | none => none
  | some (a, r) => match getU 8 r with
    | none => none
    | some (b, r) => match getU 8 r with
      | none => none
      | some (c, r) => match getU 8 r with
        | none => none
        | some (d, r) => some (⟨a, b, c, d⟩, r)

/-- The reading of the manifest fields (src/log_manifest.cc:289-330); a failing
read is reported as an error here, the code would go on with zeroes. -/
def parse (bs : Bytes) : Option LogMani :=
  match getU 8 bs with
  | none => none
  | some (a, r) => match getU 8 r with
    | none => none
    | some (b, r) => match getU 8 r with
      | none => none
      | some (c, r) => match getU 4 r with
        | none => none
        | some (n, r) => match parseN getEnt n r with
          | none => none
          | some (fs, _) => some ⟨a, b, c, fs⟩

/-- `LogManifest::load` up to the loading of the log files
(src/log_manifest.cc:240-330). -/
def load (file : Bytes) : Except Status LogMani :=
  match checkFrame footer file with
  | .ok => match parse file with
    | some m => .ok m
    | none => .error .fileCorruption
  | s => .error s

/-- every number fits its field -/
def Fits (m : LogMani) : Prop :=
  m.maxLog < 2 ^ 64 ∧ m.lastFlushed < 2 ^ 64 ∧ m.lastSynced < 2 ^ 64 ∧ m.files.length < 2 ^ 32 ∧
  ∀ e ∈ m.files, e.num < 2 ^ 64 ∧ e.minSeq < 2 ^ 64 ∧ e.flushed < 2 ^ 64 ∧ e.synced < 2 ^ 64

/-! ### The incremental store -/

/-- The comparison loop (src/log_manifest.cc:586-593): the first position below
`n` where the two differ, 0 if there is none. -/
def firstDiff : Nat → Bytes → Bytes → Option Nat
  | n + 1, a :: as, b :: bs => if a ≠ b then some 0 else (firstDiff n as bs).map (· + 1)
  | _, _, _ => none

/-- doubling of the cache buffer (src/log_manifest.cc:605-610) -/
def grow (cap n : Nat) : Nat :=
  if h : cap = 0 ∨ n ≤ cap then cap else grow (2 * cap) n
termination_by n - cap
decreasing_by omega

/-- The manifest file, its backup and the cached copy.  `cache` is the whole
buffer `cachedManifest` (content beyond `lenCached` is left over or
uninitialised). -/
structure Disk where
  file : Bytes
  bak : Option Bytes
  cache : Bytes
  lenCached : Nat
  fullBackup : Bool

/-- What the environment decides in one store: whether `fsync` is asked for and
succeeds, what `BackupRestore::backup` leaves if it fails, and the content of
freshly allocated memory. -/
structure Env where
  fsync : Bool
  fsyncOk : Bool
  backupFails : Option Bytes
  junk : Nat → UInt8

/-- `BackupRestore::backup` (src/internal_helper.cc:358-407) when every write
succeeds.  Files are not deleted from outside. -/
def backup (bak : Option Bytes) (ctx : Bytes) (skip : Nat) : Bytes :=
  let old := bak.getD []
  let w := if ctx.length > skip then pwrite old skip (ctx.drop skip) else old
  if old.length > ctx.length then ftruncate w ctx.length else w

/-- `first_diff_pos` (src/log_manifest.cc:579-593) -/
def diffPos (d : Disk) (new : Bytes) : Nat :=
  if d.lenCached = 0 then 0
  else (firstDiff (min d.cache.length new.length) d.cache new).getD 0

/-- the write of the changed suffix (src/log_manifest.cc:596-601) and the
truncation (580,615-617) -/
def newFile (d : Disk) (new : Bytes) : Bytes :=
  let w := if new.length > diffPos d new then pwrite d.file (diffPos d new) (new.drop (diffPos d new)) else d.file
  if d.lenCached = 0 ∨ d.lenCached > new.length then ftruncate w new.length else w

/-- the new content of the cache buffer (src/log_manifest.cc:605-613) -/
def newCache (d : Disk) (new : Bytes) (junk : Nat → UInt8) : Bytes :=
  if new.length > d.cache.length then
    new ++ (List.range (grow d.cache.length new.length - new.length)).map junk
  else new ++ d.cache.drop new.length

/-- the backup file afterwards, and `fullBackupRequired`
(src/log_manifest.cc:619-642) -/
def newBak (d : Disk) (new : Bytes) (e : Env) : Option Bytes × Bool :=
  if e.fsync && e.fsyncOk then
    match e.backupFails with
    | none => (some (backup d.bak new (if d.fullBackup then 0 else diffPos d new)), false)
    | some junk => (some junk, true)
  else (d.bak, true)

/-- `LogManifest::storeInternal` (src/log_manifest.cc:509-644).  The write of
the manifest itself is taken to succeed. -/
def store (d : Disk) (m : LogMani) (e : Env) : Disk where
  file := newFile d m.enc
  bak := (newBak d m.enc e).1
  cache := newCache d m.enc e.junk
  lenCached := m.enc.length
  fullBackup := (newBak d m.enc e).2

/-- `LogMgr::init` (src/log_mgr.cc:107-117): load, and if that fails copy the
backup over the manifest and load again. -/
def recover (file : Bytes) (bak : Option Bytes) : Except Status LogMani :=
  match load file with
  | .ok m => .ok m
  | .error _ => match bak with
    | none => .error .fileNotExist
    | some b => load b

/-- A handle just created or opened over a file with any content
(src/log_manifest.cc:150-162): nothing cached. -/
def opened (file : Bytes) (bak : Option Bytes) (buf : Bytes) : Disk := ⟨file, bak, buf, 0, true⟩

def run (d : Disk) : List (LogMani × Env) → Disk
  | [] => d
  | (m, e) :: rest => run (store d m e) rest

/-! ### Lemmas -/

theorem footer_length : footer.length = 8 := rfl

theorem encEnt_length (e : LogEnt) : (encEnt e).length = 32 := by simp [encEnt]

theorem flat_length (fs : List LogEnt) : (fs.flatMap encEnt).length = 32 * fs.length := by
  induction fs with
  | nil => rfl
  | cons a as ih => rw [List.flatMap_cons, List.length_append, encEnt_length, ih, List.length_cons]; omega

theorem enc_length (m : LogMani) : m.enc.length = 44 + 32 * m.files.length := by
  unfold enc
  rw [frame_length _ _ _ footer_length]
  simp only [body, List.length_append, be_length, flat_length]; omega

theorem getEnt_enc (e : LogEnt) (h : e.num < 2 ^ 64 ∧ e.minSeq < 2 ^ 64 ∧ e.flushed < 2 ^ 64 ∧ e.synced < 2 ^ 64)
    (r : Bytes) : getEnt (encEnt e ++ r) = some (e, r) := by
  obtain ⟨h1, h2, h3, h4⟩ := h
  unfold getEnt encEnt
  simp only [List.append_assoc]
  rw [getU_be (by simpa using h1)]; simp only []
  rw [getU_be (by simpa using h2)]; simp only []
  rw [getU_be (by simpa using h3)]; simp only []
  rw [getU_be (by simpa using h4)]

theorem parse_enc {m : LogMani} (h : m.Fits) : parse m.enc = some m := by
  obtain ⟨h1, h2, h3, h4, h5⟩ := h
  unfold parse enc frame body
  simp only [List.append_assoc]
  rw [getU_be (by simpa using h1)]; simp only []
  rw [getU_be (by simpa using h2)]; simp only []
  rw [getU_be (by simpa using h3)]; simp only []
  rw [getU_be (by simpa using h4)]; simp only []
  rw [parseN_enc m.files fun e he r => getEnt_enc e (h5 e he) r]

theorem load_enc {m : LogMani} (h : m.Fits) : load m.enc = .ok m := by
  unfold load
  rw [show checkFrame footer m.enc = .ok from checkFrame_frame _ _ _ footer_length, parse_enc h]

theorem firstDiff_some : ∀ (n : Nat) (a b : Bytes) (d : Nat), firstDiff n a b = some d →
    d < n ∧ d < a.length ∧ d < b.length ∧ a.take d = b.take d ∧ a[d]? ≠ b[d]? := by
  intro n
  induction n with
  | zero => intro a b d h; simp [firstDiff] at h
  | succ n ih =>
    intro a b d h
    cases a with
    | nil => simp [firstDiff] at h
    | cons x xs => cases b with
      | nil => simp [firstDiff] at h
      | cons y ys =>
        rw [firstDiff] at h
        split at h
        · next hne => cases h; simp [hne]
        · next he =>
          simp at he
          subst he
          obtain ⟨k, hk, rfl⟩ := Option.map_eq_some_iff.1 h
          obtain ⟨i1, i2, i3, i4, i5⟩ := ih xs ys k hk
          simp [i4]
          refine ⟨by omega, by omega, by omega, ?_⟩
          simpa using i5

/-- Two manifests whose bytes agree beyond the header have the same length. -/
theorem enc_header {m m' : LogMani} (h : m.Fits) (h' : m'.Fits) (e : m.enc.take 28 = m'.enc.take 28) :
    m.files.length = m'.files.length := by
  have key : ∀ x : LogMani, x.enc.take 28 =
      be 8 x.maxLog ++ be 8 x.lastFlushed ++ be 8 x.lastSynced ++ be 4 x.files.length := by
    intro x
    have hl : (be 8 x.maxLog ++ be 8 x.lastFlushed ++ be 8 x.lastSynced ++ be 4 x.files.length).length = 28 := by
      simp
    unfold enc frame body
    simp only [List.append_assoc] at hl ⊢
    rw [← List.append_assoc (be 8 x.maxLog), ← List.append_assoc (be 8 x.maxLog ++ _),
      ← List.append_assoc (be 8 x.maxLog ++ _ ++ _)]
    rw [List.take_append_of_le_length (by simp), List.take_of_length_le (by simp)]
    simp
  rw [key, key] at e
  have := congrArg (List.drop 24) e
  have h24 : ∀ x : LogMani, (be 8 x.maxLog ++ be 8 x.lastFlushed ++ be 8 x.lastSynced ++
      be 4 x.files.length).drop 24 = be 4 x.files.length := by
    intro x
    have : (be 8 x.maxLog ++ be 8 x.lastFlushed ++ be 8 x.lastSynced).length = 24 := by simp
    rw [← this, List.drop_left]
  rw [h24, h24] at this
  exact be_inj (by simpa using h.2.2.2.1) (by simpa using h'.2.2.2.1) this

/-- A target file that holds the cached manifest, after writing the new bytes
from the first difference on, starts with the new bytes. -/
theorem write_diff {m0 m : LogMani} (h0 : m0.Fits) (h : m.Fits) {cache : Bytes}
    (hc : cache.take m0.enc.length = m0.enc) :
    let diff := (firstDiff (min cache.length m.enc.length) cache m.enc).getD 0
    diff < m.enc.length ∧
    pwrite m0.enc diff (m.enc.drop diff) = m.enc ++ m0.enc.drop m.enc.length := by
  intro diff
  have hpos : 0 < m.enc.length := by rw [enc_length]; omega
  cases hd : firstDiff (min cache.length m.enc.length) cache m.enc with
  | none =>
    have : diff = 0 := by simp only [diff, hd, Option.getD_none]
    rw [this]
    exact ⟨hpos, by rw [List.drop_zero, pwrite_zero]⟩
  | some d =>
    have hdd : diff = d := by simp only [diff, hd, Option.getD_some]
    rw [hdd]
    obtain ⟨i1, i2, i3, i4, i5⟩ := firstDiff_some _ _ _ _ hd
    refine ⟨i3, ?_⟩
    have hle : d ≤ m0.enc.length := by
      by_contra hgt
      have hgt : m0.enc.length < d := by omega
      have t : ∀ k, k ≤ m0.enc.length → m0.enc.take k = m.enc.take k := by
        intro k hk
        have e1 : m0.enc.take k = cache.take k := by
          rw [← hc, List.take_take, Nat.min_eq_left hk]
        have e2 : cache.take k = m.enc.take k := by
          have := congrArg (List.take k) i4
          rw [List.take_take, List.take_take, Nat.min_eq_left (by omega)] at this
          exact this
        rw [e1, e2]
      have := enc_header h0 h (t 28 (by rw [enc_length]; omega))
      have l0 := enc_length m0
      have l1 := enc_length m
      omega
    refine pwrite_tail hle (by omega) ?_
    rw [← hc, List.take_take, Nat.min_eq_left hle, i4]

theorem grow_ge (cap n : Nat) (h : 0 < cap) : n ≤ grow cap n := by
  fun_induction grow cap n with
  | case1 cap h' => omega
  | case2 cap h' ih => exact ih (by omega)

/-- the state of the disk and the cache after a store of `m` -/
structure Holds (d : Disk) (m : LogMani) : Prop where
  fits : m.Fits
  file : d.file = m.enc
  len : d.lenCached = m.enc.length
  cache : d.cache.take m.enc.length = m.enc
  cap : m.enc.length ≤ d.cache.length
  bak : d.fullBackup = false → d.bak = some m.enc

/-- before the first store, or after one -/
def Good (d : Disk) : Prop :=
  0 < d.cache.length ∧ ((d.lenCached = 0 ∧ d.fullBackup = true) ∨ ∃ m, Holds d m)

theorem trunc_new (new rest : Bytes) : ftruncate (new ++ rest) new.length = new := ftruncate_append _ _

theorem backup_full (bak : Option Bytes) (ctx : Bytes) (hpos : 0 < ctx.length) : backup bak ctx 0 = ctx := by
  unfold backup
  simp only [List.drop_zero, gt_iff_lt, hpos, if_true, pwrite_zero]
  split
  · exact trunc_new _ _
  · next h => rw [List.drop_eq_nil_of_le (by omega), List.append_nil]

theorem newFile_eq {d : Disk} (hd : Good d) {m : LogMani} (hm : m.Fits) : newFile d m.enc = m.enc := by
  have hpos : 0 < m.enc.length := by rw [enc_length]; omega
  obtain ⟨hcap, hg⟩ := hd
  unfold newFile
  rcases hg with ⟨h0, _⟩ | ⟨m0, hh⟩
  · have : diffPos d m.enc = 0 := by unfold diffPos; rw [if_pos h0]
    rw [this]
    simp only [gt_iff_lt, hpos, if_true, List.drop_zero, pwrite_zero]
    rw [if_pos (Or.inl h0)]
    exact trunc_new _ _
  · have hne : d.lenCached ≠ 0 := by rw [hh.len, enc_length]; omega
    have hdp : diffPos d m.enc = (firstDiff (min d.cache.length m.enc.length) d.cache m.enc).getD 0 := by
      unfold diffPos; rw [if_neg hne]
    obtain ⟨w1, w2⟩ := write_diff hh.fits hm hh.cache
    rw [← hdp] at w1 w2
    simp only [gt_iff_lt, w1, if_true]
    rw [hh.file, w2]
    split
    · exact trunc_new _ _
    · next hlt =>
      rw [List.drop_eq_nil_of_le (by rw [← hh.len]; omega), List.append_nil]

theorem newBak_eq {d : Disk} (hd : Good d) {m : LogMani} (hm : m.Fits) (e : Env)
    (h : (newBak d m.enc e).2 = false) : (newBak d m.enc e).1 = some m.enc := by
  have hpos : 0 < m.enc.length := by rw [enc_length]; omega
  obtain ⟨hcap, hg⟩ := hd
  unfold newBak at h ⊢
  split
  · next hs =>
    rw [if_pos hs] at h
    cases hb : e.backupFails with
    | some j => rw [hb] at h; cases h
    | none =>
      simp only [Option.some.injEq]
      by_cases hf : d.fullBackup = true
      · rw [if_pos hf]; exact backup_full _ _ hpos
      · rw [if_neg hf]
        rcases hg with ⟨_, h0⟩ | ⟨m0, hh⟩
        · exact absurd h0 hf
        · have hne : d.lenCached ≠ 0 := by rw [hh.len, enc_length]; omega
          have hdp : diffPos d m.enc = (firstDiff (min d.cache.length m.enc.length) d.cache m.enc).getD 0 := by
            unfold diffPos; rw [if_neg hne]
          obtain ⟨w1, w2⟩ := write_diff hh.fits hm hh.cache
          rw [← hdp] at w1 w2
          rw [hh.bak (by simpa using hf)]
          unfold backup
          simp only [Option.getD_some, gt_iff_lt, w1, if_true, w2]
          split
          · exact trunc_new _ _
          · next h => rw [List.drop_eq_nil_of_le (by omega), List.append_nil]
  · next hs => rw [if_neg hs] at h; cases h

theorem store_holds {d : Disk} (hd : Good d) {m : LogMani} (hm : m.Fits) (e : Env) : Holds (store d m e) m := by
  have h1 := newFile_eq hd hm
  have h2 := newBak_eq hd hm e
  have h3 : (newCache d m.enc e.junk).take m.enc.length = m.enc := by
    unfold newCache; split <;> exact List.take_left
  have h4 : m.enc.length ≤ (newCache d m.enc e.junk).length := by
    unfold newCache; split <;> simp
  unfold store
  generalize newFile d m.enc = f at *
  generalize newBak d m.enc e = b at *
  generalize newCache d m.enc e.junk = c at *
  generalize hx : m.enc = x at *
  constructor
  · exact hm
  · rw [hx]; exact h1
  · rw [hx]
  · rw [hx]; exact h3
  · rw [hx]; exact h4
  · rw [hx]; exact h2

theorem store_good {d : Disk} (hd : Good d) {m : LogMani} (hm : m.Fits) (e : Env) : Good (store d m e) := by
  have := store_holds hd hm e
  refine ⟨?_, Or.inr ⟨m, this⟩⟩
  have h1 := this.cap
  have h2 := enc_length m
  omega

theorem run_good {d : Disk} (hd : Good d) (es : List (LogMani × Env)) (h : ∀ p ∈ es, p.1.Fits) :
    Good (run d es) := by
  induction es generalizing d with
  | nil => exact hd
  | cons p ps ih => exact ih (store_good hd (h p (by simp)) p.2) fun q hq => h q (by simp [hq])

theorem run_append (d : Disk) (a b : List (LogMani × Env)) : run d (a ++ b) = run (run d a) b := by
  induction a generalizing d with
  | nil => rfl
  | cons p ps ih => exact ih _

end LogMani
end Jungle
