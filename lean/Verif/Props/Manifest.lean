/-
  Manifests and table metadata (C25, C26, C27, C42).
-/
import Verif.Codec.LogMani
import Verif.Codec.DbManiLemmas

namespace Jungle

/-! ## C25: metadata of a table record -/

/-- **C25.**  User metadata, deletion mark, compression mark and (for compressed
values) the original length come back exactly, by each of the three ways the
stored metadata is read; empty user metadata comes back empty. -/
theorem C25_meta_round_trip (umeta : Bytes) (i : InternalMeta) (hl : i.originalValueLen < 2 ^ 32)
    (hc : i.isCompressed = false → i.originalValueLen = 0) :
    InternalMeta.fromRaw (InternalMeta.toRaw umeta i) = (i, umeta) ∧
    InternalMeta.readInternal (InternalMeta.toRaw umeta i) = i ∧
    ((InternalMeta.extractFlags (InternalMeta.toRaw umeta i)).testBit 0 = i.isTombstone ∧
     (InternalMeta.extractFlags (InternalMeta.toRaw umeta i)).testBit 1 = i.isCompressed) := by
  have e : (⟨i.isTombstone, i.isCompressed, if i.isCompressed then i.originalValueLen else 0⟩ : InternalMeta) = i := by
    cases i with
    | mk t c l => cases c <;> simp_all
  refine ⟨?_, ?_, ?_⟩
  · rw [InternalMeta.fromRaw_toRaw _ _ hl, e]
  · rw [InternalMeta.readInternal_toRaw _ _ hl, e]
  · rw [InternalMeta.extractFlags_toRaw]
    cases i with
    | mk t c l => cases t <;> cases c <;> simp [InternalMeta.flags, Nat.testBit]

example : InternalMeta.fromRaw (InternalMeta.toRaw [7, 8] ⟨true, true, 300⟩) = (⟨true, true, 300⟩, [7, 8]) := by decide
example : InternalMeta.fromRaw (InternalMeta.toRaw [1] {}) = ({}, [1]) := by decide

/-! ## C26: log manifest -/

open LogMani in
/-- **C26.**  Start from a manifest file with any content (new, or left by an
earlier process) and store any states one after the other, with or without
fsync, with failing fsyncs and failing backups.  After storing `m` the file on
disk holds exactly `m`, although only the changed suffix was written. -/
theorem C26_store_load (file : Bytes) (bak : Option Bytes) (buf : Bytes) (hbuf : 0 < buf.length)
    (es : List (LogMani × Env)) (hes : ∀ p ∈ es, p.1.Fits) (m : LogMani) (hm : m.Fits) (e : Env) :
    LogMani.load (run (opened file bak buf) (es ++ [(m, e)])).file = .ok m := by
  have hg : Good (opened file bak buf) := ⟨hbuf, Or.inl ⟨rfl, rfl⟩⟩
  rw [run_append]
  show LogMani.load (store _ m e).file = _
  rw [(store_holds (run_good hg es hes) hm e).file, LogMani.load_enc hm]

open LogMani in
theorem run_keeps_bak {d : Disk} (b : List (LogMani × Env)) (hb : ∀ p ∈ b, p.2.fsync = false) :
    (run d b).bak = d.bak := by
  induction b generalizing d with
  | nil => rfl
  | cons p ps ih =>
    rw [run, ih fun q hq => hb q (by simp [hq])]
    show (newBak d p.1.enc p.2).1 = d.bak
    unfold newBak
    rw [hb p (by simp)]; rfl

open LogMani in
/-- **C26.**  Let the last store with fsync (and backup) be the one of `m`, and
let the process die at any later moment, during or after further stores without
fsync or during the next store before its fsync returns.  `torn` is whatever the
manifest file then contains.  Reopening gives what the file says if the file
passes its checks, and `m` otherwise. -/
theorem C26_torn_file_uses_backup (file : Bytes) (bak : Option Bytes) (buf : Bytes) (hbuf : 0 < buf.length)
    (es : List (LogMani × Env)) (hes : ∀ p ∈ es, p.1.Fits) (m : LogMani) (hm : m.Fits) (e : Env)
    (he : e.fsync = true ∧ e.fsyncOk = true ∧ e.backupFails = none)
    (later : List (LogMani × Env)) (hl : ∀ p ∈ later, p.2.fsync = false) (torn : Bytes) :
    recover torn (run (opened file bak buf) (es ++ [(m, e)] ++ later)).bak =
      match LogMani.load torn with
      | .ok m' => .ok m'
      | .error _ => .ok m := by
  have hg : Good (opened file bak buf) := ⟨hbuf, Or.inl ⟨rfl, rfl⟩⟩
  rw [run_append, run_keeps_bak later hl, run_append]
  have hh := store_holds (run_good hg es hes) hm e
  have hf : (store (run (opened file bak buf) es) m e).fullBackup = false := by
    show (newBak _ m.enc e).2 = false
    unfold newBak; rw [he.1, he.2.1, he.2.2]; rfl
  have hb := hh.bak hf
  show recover torn (store (run (opened file bak buf) es) m e).bak = _
  rw [hb]
  unfold recover
  cases LogMani.load torn with
  | ok m' => rfl
  | error s => simp only [LogMani.load_enc hm]

open LogMani in
/-- **C26.**  The backup is rewritten only when the file itself is safe: if the
process dies while the backup is written, leaving any bytes in it, reopening
gives the state just stored. -/
theorem C26_torn_backup_harmless (file : Bytes) (bak : Option Bytes) (buf : Bytes) (hbuf : 0 < buf.length)
    (es : List (LogMani × Env)) (hes : ∀ p ∈ es, p.1.Fits) (m : LogMani) (hm : m.Fits) (e : Env)
    (torn : Option Bytes) :
    recover (run (opened file bak buf) (es ++ [(m, e)])).file torn = .ok m := by
  unfold recover
  rw [C26_store_load file bak buf hbuf es hes m hm e]

/-- **C26.**  A manifest file in which one byte has been changed is rejected. -/
theorem C26_altered_byte_detected (m : LogMani) (i : Nat) (v : UInt8) (hi : i < m.enc.length)
    (hv : m.enc[i] ≠ v) : ∃ s, LogMani.load (m.enc.set i v) = .error s := by
  have := checkFrame_altered (show checkFrame LogMani.footer m.enc = .ok from
    checkFrame_frame _ _ _ LogMani.footer_length) hi hv
  unfold LogMani.load
  cases h : checkFrame LogMani.footer (m.enc.set i v) <;> first | exact absurd h this | exact ⟨_, rfl⟩

namespace Example
def lm1 : LogMani := ⟨1, 2 ^ 64 - 1, 0, [⟨0, 1, 2 ^ 64 - 1, 5⟩]⟩
def lm2 : LogMani := ⟨1, 2 ^ 64 - 1, 1, [⟨0, 1, 2 ^ 64 - 1, 5⟩, ⟨1, 6, 2 ^ 64 - 1, 9⟩]⟩
def env1 : LogMani.Env := ⟨true, true, none, fun _ => 0⟩
def env2 : LogMani.Env := ⟨false, true, none, fun _ => 0⟩
theorem lm1_fits : lm1.Fits := by unfold LogMani.Fits lm1; simp
theorem lm2_fits : lm2.Fits := by unfold LogMani.Fits lm2; simp
/-- a history: store with fsync, then two without, then the file is torn -/
example (torn : Bytes) (h : LogMani.load torn = .error .checksumError) :
    LogMani.recover torn (LogMani.run (LogMani.opened [] none [0])
      ([] ++ [(lm1, env1)] ++ [(lm2, env2), (lm1, env2)])).bak = .ok lm1 := by
  rw [C26_torn_file_uses_backup [] none [0] (by simp) [] (by simp) lm1 lm1_fits env1 ⟨rfl, rfl, rfl⟩ _
    (by simp [env2]) torn, h]
example : LogMani.load (LogMani.run (LogMani.opened [1, 2, 3] none [0]) ([(lm2, env2)] ++ [(lm1, env1)])).file = .ok lm1 :=
  C26_store_load [1, 2, 3] none [0] (by simp) [(lm2, env2)] (by simp [lm2_fits]) lm1 lm1_fits env1
end Example

/-! ## C27: table manifest -/

open TabMani in
/-- **C27.**  After any stores over a file with any content, the file holds
exactly the last state stored: highest table number, levels, and every table's
number, level, partition, status, minimum key and checkpoints. -/
theorem C27_store_load (d : Disk) (es : List (TabMani × Bool)) (m : TabMani) (hm : m.Ok) (synced : Bool) :
    TabMani.load (run d (es ++ [(m, synced)])).file = .ok m := by
  rw [run_append]
  show TabMani.load (store _ m synced).file = _
  rw [store_file, TabMani.load_enc hm]

open TabMani in
/-- **C27.**  If the file is found damaged later, the state of the last store
with fsync is used. -/
theorem C27_torn_file_uses_backup (d : Disk) (es : List (TabMani × Bool)) (m : TabMani) (hm : m.Ok)
    (later : List (TabMani × Bool)) (hl : ∀ p ∈ later, p.2 = false) (torn : Bytes) :
    TabMani.recover torn (run d (es ++ [(m, true)] ++ later)).bak =
      match TabMani.load torn with
      | .ok m' => .ok m'
      | .error _ => .ok m := by
  rw [run_append, run_unsynced _ later hl, run_append]
  show TabMani.recover torn (store _ m true).bak = _
  rw [store_bak]
  unfold TabMani.recover
  cases TabMani.load torn with
  | ok m' => rfl
  | error s => simp only [if_true, TabMani.load_enc hm]

/-- **C26, C27.**  A manifest of another kind put in the place of the expected one is rejected,
although its checksum is right. -/
theorem C27_wrong_kind_rejected (l : LogMani) (t : TabMani) (d : DbMani) :
    TabMani.load l.enc = .error .fileCorruption ∧ TabMani.load d.enc = .error .fileCorruption ∧
    LogMani.load t.enc = .error .fileCorruption ∧ LogMani.load d.enc = .error .fileCorruption := by
  have h1 : checkFrame TabMani.footer l.enc = .fileCorruption :=
    checkFrame_other _ _ _ _ LogMani.footer_length (by decide)
  have h2 : checkFrame TabMani.footer d.enc = .fileCorruption :=
    checkFrame_other _ _ _ _ rfl (by decide)
  have h3 : checkFrame LogMani.footer t.enc = .fileCorruption :=
    checkFrame_other _ _ _ _ TabMani.footer_length (by decide)
  have h4 : checkFrame LogMani.footer d.enc = .fileCorruption :=
    checkFrame_other _ _ _ _ rfl (by decide)
  unfold TabMani.load LogMani.load
  rw [h1, h2, h3, h4]
  exact ⟨rfl, rfl, rfl, rfl⟩

/-- **C27.**  A table manifest in which one byte has been changed is rejected. -/
theorem C27_altered_byte_detected (m : TabMani) (i : Nat) (v : UInt8) (hi : i < m.enc.length)
    (hv : m.enc[i] ≠ v) : ∃ s, TabMani.load (m.enc.set i v) = .error s := by
  have := checkFrame_altered (show checkFrame TabMani.footer m.enc = .ok from
    checkFrame_frame _ _ _ TabMani.footer_length) hi hv
  unfold TabMani.load
  cases h : checkFrame TabMani.footer (m.enc.set i v) <;> first | exact absurd h this | exact ⟨_, rfl⟩

namespace Example
def tm1 : TabMani := ⟨9, [[⟨3, 0, 0, [], [(5, 2)]⟩, ⟨4, 1, 1, [], []⟩], [⟨7, 0, 0, [], []⟩, ⟨9, 0, 0, [107, 1], [(5, 3)]⟩]]⟩
theorem tm1_ok : tm1.Ok := by
  unfold TabMani.Ok tm1 TabMani.LevelsOk TabMani.LevelsOk TabMani.LevelsOk TabMani.EntOk
  simp
example : TabMani.load (TabMani.run ⟨[1, 2], none⟩ ([] ++ [(tm1, true)])).file = .ok tm1 :=
  C27_store_load _ [] tm1 tm1_ok true
end Example

/-! ## C42: sub-DB names and identifiers -/

namespace DbMani

/-- What can happen to the manifest: a sub-DB is opened by name, or the manifest
is stored, the process ends and the manifest is loaded again.  At most 2^32 - 1
sub-DBs exist. -/
inductive Step : DbMani → DbMani → Prop
  | openDB (m : DbMani) (n : Bytes) (hn : GoodName n) : Step m (m.openDB n).1
  | reopen (m : DbMani) (h : m.ids.length < 2 ^ 32) : Step m (DbMani.reopen m.enc)

inductive Later : DbMani → DbMani → Prop
  | refl (m : DbMani) : Later m m
  | step {m m1 m2 : DbMani} : Later m m1 → Step m1 m2 → Later m m2

theorem later_inv {m m' : DbMani} (h : Later m m') (hi : Inv m) (hg : ∀ p ∈ m.ids, GoodName p.2) :
    Inv m' ∧ (∀ p ∈ m'.ids, GoodName p.2) ∧ ∀ p ∈ m.ids, p ∈ m'.ids := by
  induction h with
  | refl => exact ⟨hi, hg, fun _ h => h⟩
  | step _ hs ih =>
    obtain ⟨i1, i2, i3⟩ := ih
    cases hs with
    | openDB n hn =>
      obtain ⟨i, _, o2, _, o4, o5⟩ := openDB_spec i1 n
      refine ⟨o2, ?_, fun p hp => o4 p (i3 p hp)⟩
      intro p hp
      rcases o5 p hp with h | h
      · exact i2 p h
      · rw [h]; exact hn
    | reopen h =>
      unfold DbMani.reopen
      rw [load_enc i1 h i2]
      exact ⟨i1, i2, i3⟩

end DbMani

open DbMani in
/-- **C42 (part).**  From a new DB on, through any openings of sub-DBs by name
and any restarts: opening a name gives an identifier other than 0, the same one
ever after, and no other name ever gets it.  Names are shorter than 256 bytes
and contain no zero byte, and the manifest file is not damaged; what happens
otherwise is shown by the `violation` theorems. -/
theorem C42_name_id_correspond_partial (m m1 m2 : DbMani) (hreach : Later empty m) (n : Bytes) (hn : GoodName n)
    (i : Nat) (hop : m.openDB n = (m1, some i)) (hl : Later m1 m2) :
    i ≠ 0 ∧ (m2.openDB n).2 = some i ∧ ∀ n', (m2.openDB n').2 = some i → n' = n := by
  obtain ⟨i1, g1, _⟩ := later_inv hreach inv_empty (by simp [empty])
  obtain ⟨i', o1, o2, o3, _, o5⟩ := openDB_spec i1 n
  rw [hop] at o1 o2 o3 o5
  simp only [Option.some.injEq] at o1
  subst o1
  obtain ⟨i2, g2, s2⟩ := later_inv hl o2 (by
    intro p hp
    rcases o5 p hp with h | h
    · exact g1 p h
    · rw [h]; exact hn)
  have hmem := s2 _ o3
  refine ⟨?_, ?_, ?_⟩
  · have := (o2.bound _ o3).1; simp only [] at this; omega
  · unfold openDB; rw [(getId_some i2).2 hmem]
  · intro n' hn'
    obtain ⟨j, p1, p2, p3, p4, _⟩ := openDB_spec i2 n'
    rw [hn'] at p1
    cases p1
    have h1 := p4 _ hmem
    have hpair := p2.sorted
    by_contra hne
    -- two entries with the same identifier
    have : ∀ (l : List (Nat × Bytes)), l.Pairwise (fun p q => p.1 < q.1) → ∀ a ∈ l, ∀ b ∈ l, a.1 = b.1 → a = b := by
      intro l hl
      induction hl with
      | nil => simp
      | cons hh _ ih =>
        intro a ha b hb hab
        rcases List.mem_cons.1 ha with ea | ha' <;> rcases List.mem_cons.1 hb with eb | hb'
        · rw [ea, eb]
        · have := hh b hb'; rw [ea] at hab; omega
        · have := hh a ha'; rw [eb] at hab; omega
        · exact ih a ha' b hb' hab
    have := this _ hpair _ p3 _ h1 rfl
    exact hne (congrArg Prod.snd this)

/-- **C42 fails for names with a zero byte**: after a restart the name is cut at
it and a different name opens the same sub-DB. -/
theorem C42_zero_byte_violation :
    ∃ n n' : Bytes, n ≠ n' ∧ (DbMani.empty.openDB n).2 = some 1 ∧
      ((DbMani.reopen (DbMani.empty.openDB n).1.enc).openDB n').2 = some 1 :=
  ⟨[97, 0, 98], [97], by decide, by decide, by decide +kernel⟩

/-- **C42 fails for names of 256 bytes and more**: reloading the manifest writes
outside a buffer of 256 bytes. -/
theorem C42_long_name_violation :
    ∃ n : Bytes, n.length = 256 ∧ DbMani.load (DbMani.empty.openDB n).1.enc = .error .undefinedBehaviour := by
  obtain ⟨n, hlen⟩ : ∃ n : Bytes, n.length = 256 := ⟨List.replicate 256 97, List.length_replicate⟩
  refine ⟨n, hlen, ?_⟩
  have he : (DbMani.empty.openDB n).1 = ⟨2, [(1, n)], [(n, 1)]⟩ := rfl
  rw [he]
  unfold DbMani.load
  have hck : checkFrame DbMani.footer (DbMani.enc ⟨2, [(1, n)], [(n, 1)]⟩) = .ok := checkFrame_frame _ _ _ rfl
  rw [hck]
  simp only []
  unfold DbMani.enc frame
  simp only [List.append_assoc, List.length_singleton, List.flatMap_cons, List.flatMap_nil]
  rw [getU_be (by omega)]
  simp only []
  rw [getU_be (by omega)]
  simp only [parseN, DbMani.getEnt]
  rw [getU_be (by omega)]
  simp only []
  rw [getU_be (by rw [hlen]; omega)]
  simp only [hlen, Nat.le_refl, if_true]

/-- **C42 fails when the DB manifest file is damaged**, although a backup is
kept: `DB::open` ignores that loading failed and never looks at the backup.  A
single changed byte makes all names forgotten, and the next name opened is given
identifier 1, that is, the files of the first sub-DB. -/
theorem C42_damaged_manifest_violation (m : DbMani) (i : Nat) (v : UInt8) (hi : i < m.enc.length)
    (hv : m.enc[i] ≠ v) (n : Bytes) :
    DbMani.reopen (m.enc.set i v) = DbMani.empty ∧
    ((DbMani.reopen (m.enc.set i v)).openDB n).2 = some 1 := by
  have := checkFrame_altered (show checkFrame DbMani.footer m.enc = .ok from
    checkFrame_frame _ _ _ DbMani.footer_length) hi hv
  have h1 : DbMani.reopen (m.enc.set i v) = DbMani.empty := by
    unfold DbMani.reopen DbMani.load
    cases h : checkFrame DbMani.footer (m.enc.set i v) <;> first | exact absurd h this | rfl
  refine ⟨h1, ?_⟩
  rw [h1]
  obtain ⟨j, o1, o2, o3, _, o5⟩ := DbMani.openDB_spec DbMani.inv_empty n
  rw [o1]
  have hids : (DbMani.empty.openDB n).1.ids = [(1, n)] := rfl
  rw [hids] at o3
  simp at o3
  rw [o3]

namespace Example
open DbMani in
/-- open "a", open "b", restart, open "b" again -/
example : (((DbMani.empty.openDB [97]).1.openDB [98]).2 = some 2) ∧
    Later (DbMani.empty.openDB [97]).1 (((DbMani.empty.openDB [97]).1.openDB [98]).1) ∧ GoodName [98] :=
  ⟨by decide, .step (.refl _) (.openDB _ [98] (by unfold GoodName; decide)), by unfold GoodName; decide⟩
end Example

end Jungle
