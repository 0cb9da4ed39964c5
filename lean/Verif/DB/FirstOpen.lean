/-
  The first opening of the log section and what openings after an interrupted one find.
-/
import Verif.Codec.LogMani

namespace Jungle
namespace FirstOpen
open LogMani

/-- The log manifest and its backup as they are on disk; `none`: no such file. -/
structure Dir where
  file : Option Bytes
  bak : Option Bytes
  deriving DecidableEq

/-- The manifest `LogManifest::create` stores (src/log_manifest.cc:218-238, 157-163). -/
def initial : LogMani := ⟨NIL, NIL, NIL, []⟩

/-- A log file without records (src/log_file.cc, `LogFile::create`). -/
def emptyFile (n : Nat) : LogEnt := ⟨n, NIL, NIL, NIL⟩

/-- The manifest behind the first log file (src/log_mgr.cc:130-163): `issueLogFileNumber` gives 0. -/
def started : LogMani := ⟨0, NIL, NIL, [emptyFile 0]⟩

/-- A manifest stored with `fsync`: both files hold it (see C26 for the store itself). -/
def stored (m : LogMani) : Dir := ⟨some m.enc, some m.enc⟩

/-- Where the process dies in the first opening (src/log_mgr.cc:118-164, src/log_manifest.cc:218-238, 570-644). -/
inductive Point
  /-- before the manifest file is created -/
  | before
  /-- `k` bytes of the first store are written; 0: the file is created and empty -/
  | torn (k : Nat)
  /-- behind the first store, `b`: with its backup; the first log file may be there already -/
  | created (b : Bool)
  /-- the first `k` bytes of the second store are written, over those of the first one: the manifests differ in the
      first byte, so all of it is written (src/log_manifest.cc:579-601) -/
  | torn2 (k : Nat)
  /-- behind the second store, `b`: with its backup, which is still the one of the first store otherwise -/
  | ended (b : Bool)
  deriving DecidableEq

/-- What is on disk then. -/
def dirAt : Point → Dir
  | .before => ⟨none, none⟩
  | .torn k => ⟨some (initial.enc.take k), none⟩
  | .created b => ⟨some initial.enc, if b then some initial.enc else none⟩
  | .torn2 k => ⟨some (started.enc.take k ++ initial.enc.drop k), some initial.enc⟩
  | .ended b => ⟨some started.enc, if b then some started.enc else some initial.enc⟩

/-- `LogManifest::load` behind the parsing of the manifest (src/log_manifest.cc:299-470): log files that are
    missing or below the last flushed one may be left out, with the newest one kept, and the number of the last
    synced or flushed file may be forgotten.  The cases in which the newest file itself is damaged are left out. -/
structure Loads (m m' : LogMani) : Prop where
  maxLog : m'.maxLog = m.maxLog
  files : m'.files.Sublist m.files
  newest : ∀ e ∈ m.files, e.num = m.maxLog → e ∈ m'.files
  synced : m'.lastSynced = m.lastSynced ∨ m'.lastSynced = NIL
  flushed : m'.lastFlushed = m.lastFlushed ∨ m'.lastFlushed = NIL

/-- "no valid log file exists, start from 0" (src/log_mgr.cc:171-192); `addNewLogFile`
    (src/log_manifest.cc:810-824) does not touch the largest number. -/
def startFrom0 (m : LogMani) : LogMani := if m.files = [] then { m with files := [emptyFile 0] } else m

/-- `LogMgr::init` (src/log_mgr.cc:62-202): the manifest in memory and the directory afterwards. -/
inductive Opens : Dir → LogMani → Dir → Prop
  /-- there is no manifest (118-164) -/
  | fresh {b} : Opens ⟨none, b⟩ started (stored started)
  /-- it is loaded (108-110, 171-192) -/
  | loads {f b m m'} : load f = .ok m → Loads m m' → Opens ⟨some f, b⟩ (startFrom0 m') ⟨some f, b⟩
  /-- the backup is copied over it and loaded (111-117) -/
  | restores {f b s m m'} : load f = .error s → load b = .ok m → Loads m m' →
      Opens ⟨some f, some b⟩ (startFrom0 m') ⟨some b, some b⟩
  /-- there were stale log files: the manifest is stored before the check for no log files
      (`removeStaleFiles`, 333-375, 168) -/
  | stale {f b m m'} : recover f b = .ok m → Loads m m' → Opens ⟨some f, b⟩ (startFrom0 m') (stored m')

/-- A call of the user, and the close at the end of a session. -/
inductive Op
  | write
  | sync
  | flush
  deriving DecidableEq

/-- What the log section does; the result `none`: the call never returns. -/
inductive Does : LogMani → Dir → Op → Option Status → LogMani → Dir → Prop
  /-- `setSN` and `setMulti` (src/log_mgr.cc:619-621, 807-809): no largest number -/
  | refused {m d} : m.maxLog = NIL → Does m d .write (some .notInitialized) m d
  /-- the loop does not find the newest file (619-638) -/
  | hangs {m d} : m.maxLog ≠ NIL → (∀ e ∈ m.files, e.num ≠ m.maxLog) → Does m d .write none m d
  /-- the record goes to the newest file; what it holds and the numbers of that file are left open -/
  | written {m d m' : _} : m.maxLog ≠ NIL → (∃ e ∈ m.files, e.num = m.maxLog) → m'.maxLog = m.maxLog →
      m'.files.map LogEnt.num = m.files.map LogEnt.num → m'.lastSynced = m.lastSynced →
      m'.lastFlushed = m.lastFlushed → m'.Fits →
      Does m d .write (some .ok) m' d
  /-- the newest file is full, a new one is added, and the manifest is stored or not (489-550) -/
  | rotated {m d d' : _} : m.maxLog ≠ NIL → (∃ e ∈ m.files, e.num = m.maxLog) → m.maxLog + 1 < NIL →
      m.files.length + 1 < 2 ^ 32 → m.Fits →
      (d' = d ∨ ∃ b, d' = ⟨some (LogMani.enc { m with maxLog := m.maxLog + 1, files := m.files ++ [emptyFile (m.maxLog + 1)] }), b⟩) →
      Does m d .write (some .ok) { m with maxLog := m.maxLog + 1, files := m.files ++ [emptyFile (m.maxLog + 1)] } d'
  /-- `syncInternal` (1231-1235), also at close (2108-2112): "No log, do nothing" -/
  | nosync {m d} : m.maxLog = NIL → Does m d .sync (some .ok) m d
  /-- `syncInternal` (1236-1310): the manifest is stored -/
  | synced {m d m' b} : m.maxLog ≠ NIL → m'.maxLog = m.maxLog → m'.files.map LogEnt.num = m.files.map LogEnt.num →
      m'.Fits → Does m d .sync (some .ok) m' ⟨some m'.enc, b⟩
  /-- `flush` up to the last sync (1384-1396) -/
  | noflush {m d} : m.lastSynced = NIL → Does m d .flush (some .logNotSynced) m d
  /-- `flush`: the files before one of the files up to the newest are removed and the manifest is stored (1560-1585) -/
  | flushed {m d m' b upto} : m.lastSynced ≠ NIL → m'.maxLog = m.maxLog → m'.files.map LogEnt.num = (m.files.map LogEnt.num).filter (fun n => decide (upto ≤ n)) →
      upto ≤ m.maxLog → m'.Fits → Does m d .flush (some .ok) m' ⟨some m'.enc, b⟩

/-- The calls of one session and their results, beginning with what the opening left. -/
inductive Calls : LogMani → Dir → List (Op × Option Status) → LogMani → Dir → Prop
  | nil {m d} : Calls m d [] m d
  | cons {m d op r m1 d1 rest m2 d2} : Does m d op r m1 d1 → Calls m1 d1 rest m2 d2 →
      Calls m d ((op, r) :: rest) m2 d2

/-- Sessions one behind the other: each opens the directory and ends by a close (a sync) or by dying. -/
inductive Sessions : Dir → List (Op × Option Status) → Dir → Prop
  | nil {d} : Sessions d [] d
  | cons {d m d1 cs m2 d2 rest d3} : Opens d m d1 → Calls m d1 cs m2 d2 → Sessions d2 rest d3 →
      Sessions d (cs ++ rest) d3

/-! ### Lemmas -/

theorem initial_fits : initial.Fits := by
  refine ⟨by decide, by decide, by decide, by decide, ?_⟩
  intro e he
  cases he

theorem started_fits : started.Fits := by
  refine ⟨by decide, by decide, by decide, by decide, ?_⟩
  intro e he
  simp only [started, List.mem_singleton] at he
  subst he
  refine ⟨by decide, by decide, by decide, by decide⟩

theorem load_short {f : Bytes} (h : f.length < 16) : load f = .error .fileCorruption := by
  have e : checkFrame footer f = .fileCorruption := by
    unfold checkFrame
    rw [if_pos h]
  unfold load
  rw [e]

theorem recover_ok {f : Bytes} {b : Option Bytes} {m : LogMani} (h : load f = .ok m) : recover f b = .ok m := by
  unfold recover
  rw [h]

/-- A manifest without a largest number and without files, and the memory of a session on it. -/
def Stuck (m : LogMani) : Prop := m.maxLog = NIL ∧ m.lastSynced = NIL

theorem Loads.initial {m : LogMani} (h : Loads initial m) : m = initial := by
  obtain ⟨h1, h2, _, h4, h5⟩ := h
  obtain ⟨a, b, c, d⟩ := m
  have hd : d = [] := List.sublist_nil.1 h2
  have hc : c = NIL := h4.elim id id
  have hb : b = NIL := h5.elim id id
  have ha : a = NIL := h1
  subst ha; subst hb; subst hc; subst hd
  rfl

theorem torn_load : ∀ k < 44, load (initial.enc.take k) = .error .fileCorruption := by decide +kernel

theorem torn2_recover : ∀ k < 76, recover (started.enc.take k ++ initial.enc.drop k) (some initial.enc) = .ok initial := by
  decide +kernel

/-- The disk after dying behind the first store. -/
def OnlyInitial (d : Dir) : Prop :=
  (∃ f, d.file = some f ∧ recover f d.bak = .ok initial) ∧ (d.bak = none ∨ d.bak = some initial.enc)

theorem created_only (b : Bool) : OnlyInitial (dirAt (.created b)) := by
  refine ⟨⟨_, rfl, recover_ok (load_enc initial_fits)⟩, ?_⟩
  cases b
  · exact Or.inl rfl
  · exact Or.inr rfl

theorem opens_initial {d d1 : Dir} {m : LogMani} (hd : OnlyInitial d) (h : Opens d m d1) :
    m = startFrom0 initial ∧ (d1 = d ∨ d1 = dirAt (.created true)) := by
  obtain ⟨⟨f, hf, hr⟩, hb⟩ := hd
  cases h with
  | fresh => cases hf
  | loads h1 h2 =>
    simp only [Option.some.injEq] at hf
    subst hf
    rw [recover_ok h1] at hr
    have e1 := Except.ok.inj hr
    subst e1
    rw [h2.initial]
    exact ⟨rfl, Or.inl rfl⟩
  | restores h1 h2 h3 =>
    simp only [Option.some.injEq] at hf
    subst hf
    unfold recover at hr
    rw [h1] at hr
    dsimp only at hr
    rw [h2] at hr
    have e1 := Except.ok.inj hr
    subst e1
    rw [h3.initial]
    refine ⟨rfl, Or.inr ?_⟩
    rcases hb with hb | hb
    · cases hb
    · simp only [Option.some.injEq] at hb
      subst hb
      rfl
  | stale h1 h2 =>
    simp only [Option.some.injEq] at hf
    subst hf
    rw [h1] at hr
    have e1 := Except.ok.inj hr
    subst e1
    rw [h2.initial]
    exact ⟨rfl, Or.inr rfl⟩

theorem only_opens {d : Dir} (hd : OnlyInitial d) : ∃ m d1, Opens d m d1 := by
  obtain ⟨f, b⟩ := d
  obtain ⟨⟨f', hf, hr⟩, _⟩ := hd
  dsimp only at hf
  subst hf
  exact ⟨_, _, .stale hr ⟨rfl, List.Sublist.refl _, fun _ h _ => h, Or.inl rfl, Or.inl rfl⟩⟩

theorem does_stuck {m m1 : LogMani} {d d1 : Dir} {op r} (hm : Stuck m) (h : Does m d op r m1 d1) :
    m1 = m ∧ d1 = d ∧ (op = .write → r = some .notInitialized) ∧ (op = .sync → r = some .ok) ∧
      (op = .flush → r = some .logNotSynced) := by
  cases h with
  | refused => simp
  | hangs h => exact absurd hm.1 h
  | written h => exact absurd hm.1 h
  | rotated h => exact absurd hm.1 h
  | nosync => simp
  | synced h => exact absurd hm.1 h
  | noflush => simp
  | flushed h => exact absurd hm.2 h

theorem calls_stuck {m m1 : LogMani} {d d1 : Dir} {cs} (h : Calls m d cs m1 d1) (hm : Stuck m) :
    d1 = d ∧ (∀ r, (Op.write, r) ∈ cs → r = some .notInitialized) ∧ (∀ r, (Op.sync, r) ∈ cs → r = some .ok) ∧
      (∀ r, (Op.flush, r) ∈ cs → r = some .logNotSynced) := by
  induction h with
  | nil => simp
  | cons h1 _ ih =>
    obtain ⟨e1, e2, a, b, c⟩ := does_stuck hm h1
    subst e1; subst e2
    obtain ⟨e, i1, i2, i3⟩ := ih hm
    refine ⟨e, fun r hr => ?_, fun r hr => ?_, fun r hr => ?_⟩
    · rcases List.mem_cons.1 hr with e | e
      · cases e; exact a rfl
      · exact i1 r e
    · rcases List.mem_cons.1 hr with e | e
      · cases e; exact b rfl
      · exact i2 r e
    · rcases List.mem_cons.1 hr with e | e
      · cases e; exact c rfl
      · exact i3 r e

theorem sessions_stuck {d d1 : Dir} {cs} (h : Sessions d cs d1) (hd : OnlyInitial d) :
    (d1 = d ∨ d1 = dirAt (.created true)) ∧ (∀ r, (Op.write, r) ∈ cs → r = some .notInitialized) ∧
      (∀ r, (Op.sync, r) ∈ cs → r = some .ok) ∧ (∀ r, (Op.flush, r) ∈ cs → r = some .logNotSynced) := by
  induction h with
  | nil => exact ⟨Or.inl rfl, by simp, by simp, by simp⟩
  | cons h1 h2 _ ih =>
    obtain ⟨e, hd1⟩ := opens_initial hd h1
    subst e
    obtain ⟨e2, a, b, c⟩ := calls_stuck h2 ⟨rfl, rfl⟩
    subst e2
    have ho : OnlyInitial _ := hd1.elim (fun e => e ▸ hd) (fun e => e ▸ created_only true)
    obtain ⟨i0, i1, i2, i3⟩ := ih ho
    refine ⟨?_, fun r hr => ?_, fun r hr => ?_, fun r hr => ?_⟩
    · rcases i0 with e | e
      · rw [e]; exact hd1
      · exact Or.inr e
    · exact (List.mem_append.1 hr).elim (a r) (i1 r)
    · exact (List.mem_append.1 hr).elim (b r) (i2 r)
    · exact (List.mem_append.1 hr).elim (c r) (i3 r)

/-- The newest file is listed. -/
def Has (m : LogMani) : Prop := m.maxLog ≠ NIL ∧ m.maxLog ∈ m.files.map LogEnt.num

theorem has_iff {m : LogMani} : m.maxLog ∈ m.files.map LogEnt.num ↔ ∃ e ∈ m.files, e.num = m.maxLog := List.mem_map

/-- A directory whose manifest lists the newest file. -/
def GoodDir (d : Dir) : Prop := d.file = none ∨ ∃ m, d.file = some m.enc ∧ m.Fits ∧ Has m

theorem Loads.has {m m' : LogMani} (h : Loads m m') (hm : Has m) : Has m' := by
  refine ⟨h.maxLog ▸ hm.1, ?_⟩
  obtain ⟨e, he, hn⟩ := has_iff.1 hm.2
  rw [has_iff, h.maxLog]
  exact ⟨e, h.newest e he hn, hn⟩

theorem Loads.fits {m m' : LogMani} (h : Loads m m') (hm : m.Fits) : m'.Fits := by
  obtain ⟨a, b, c, d, e⟩ := hm
  have hN : NIL < 2 ^ 64 := by decide
  refine ⟨h.maxLog ▸ a, ?_, ?_, ?_, fun x hx => e x (h.files.subset hx)⟩
  · rcases h.flushed with e | e <;> rw [e] <;> assumption
  · rcases h.synced with e | e <;> rw [e] <;> assumption
  · have := h.files.length_le
    omega

theorem Has.startFrom0 {m : LogMani} (h : Has m) : startFrom0 m = m := by
  unfold FirstOpen.startFrom0
  rw [if_neg]
  intro e
  have := h.2
  rw [e] at this
  cases this

theorem opens_good {d d1 : Dir} {m : LogMani} (hd : GoodDir d) (h : Opens d m d1) :
    Has m ∧ m.Fits ∧ GoodDir d1 := by
  cases h with
  | fresh => exact ⟨⟨by decide, by decide⟩, started_fits, Or.inr ⟨started, rfl, started_fits, by decide, by decide⟩⟩
  | loads h1 h2 =>
    rcases hd with e | ⟨m0, e, hf, hh⟩
    · cases e
    simp only [Option.some.injEq] at e
    subst e
    rw [load_enc hf] at h1
    have e1 := Except.ok.inj h1
    subst e1
    have h3 := h2.has hh
    rw [h3.startFrom0]
    exact ⟨h3, h2.fits hf, Or.inr ⟨m0, rfl, hf, hh⟩⟩
  | restores h1 h2 h3 =>
    rcases hd with e | ⟨m0, e, hf, hh⟩
    · cases e
    simp only [Option.some.injEq] at e
    subst e
    rw [load_enc hf] at h1
    cases h1
  | stale h1 h2 =>
    rcases hd with e | ⟨m0, e, hf, hh⟩
    · cases e
    simp only [Option.some.injEq] at e
    subst e
    rw [recover_ok (load_enc hf)] at h1
    have e1 := Except.ok.inj h1
    subst e1
    have h3 := h2.has hh
    rw [h3.startFrom0]
    exact ⟨h3, h2.fits hf, Or.inr ⟨_, (rfl : (stored _).file = some _), h2.fits hf, h3⟩⟩

theorem does_good {m m1 : LogMani} {d d1 : Dir} {op r} (hm : Has m) (hd : GoodDir d)
    (h : Does m d op r m1 d1) : Has m1 ∧ GoodDir d1 ∧ (op = .write → r = some .ok) := by
  cases h with
  | refused h => exact absurd h hm.1
  | hangs _ h2 =>
    obtain ⟨e, he, hn⟩ := has_iff.1 hm.2
    exact absurd hn (h2 e he)
  | written _ _ h3 h4 => exact ⟨⟨h3 ▸ hm.1, by rw [h3, h4]; exact hm.2⟩, hd, fun _ => rfl⟩
  | rotated _ _ h3 h4 hf h5 =>
    have hh : Has { m with maxLog := m.maxLog + 1, files := m.files ++ [emptyFile (m.maxLog + 1)] } := by
      refine ⟨Nat.ne_of_lt h3, ?_⟩
      simp [emptyFile]
    refine ⟨hh, ?_, fun _ => rfl⟩
    rcases h5 with e | ⟨b, e⟩
    · rw [e]; exact hd
    · subst e
      refine Or.inr ⟨_, rfl, ?_, hh⟩
      obtain ⟨a1, a2, a3, a4, a5⟩ := hf
      have hN : NIL < 2 ^ 64 := by decide
      refine ⟨?_, a2, a3, ?_, ?_⟩
      · exact Nat.lt_trans h3 hN
      · simpa using h4
      · intro x hx
        rcases List.mem_append.1 hx with hx | hx
        · exact a5 x hx
        · rw [List.mem_singleton] at hx
          subst hx
          exact ⟨Nat.lt_trans h3 hN, hN, hN, hN⟩
  | nosync h => exact absurd h hm.1
  | synced h1 h2 h3 h4 =>
    have hh : Has m1 := ⟨h2 ▸ hm.1, by rw [h2, h3]; exact hm.2⟩
    exact ⟨hh, Or.inr ⟨m1, rfl, h4, hh⟩, fun e => by cases e⟩
  | noflush => exact ⟨hm, hd, fun e => by cases e⟩
  | flushed h1 h2 h3 h4 h5 =>
    have hh : Has m1 := ⟨h2 ▸ hm.1, by rw [h2, h3, List.mem_filter]; exact ⟨hm.2, by simpa using h4⟩⟩
    exact ⟨hh, Or.inr ⟨m1, rfl, h5, hh⟩, fun e => by cases e⟩

theorem calls_good {m m1 : LogMani} {d d1 : Dir} {cs} (h : Calls m d cs m1 d1) (hm : Has m) (hd : GoodDir d) :
    GoodDir d1 ∧ ∀ r, (Op.write, r) ∈ cs → r = some .ok := by
  induction h with
  | nil => exact ⟨hd, by simp⟩
  | cons h1 _ ih =>
    obtain ⟨a, b, c⟩ := does_good hm hd h1
    obtain ⟨i1, i2⟩ := ih a b
    refine ⟨i1, fun r hr => ?_⟩
    rcases List.mem_cons.1 hr with e | e
    · cases e; exact c rfl
    · exact i2 r e

theorem sessions_good {d d1 : Dir} {cs} (h : Sessions d cs d1) (hd : GoodDir d) :
    GoodDir d1 ∧ ∀ r, (Op.write, r) ∈ cs → r = some .ok := by
  induction h with
  | nil => exact ⟨hd, by simp⟩
  | cons h1 h2 _ ih =>
    obtain ⟨a, _, b⟩ := opens_good hd h1
    obtain ⟨c, e⟩ := calls_good h2 a b
    obtain ⟨i1, i2⟩ := ih c
    exact ⟨i1, fun r hr => (List.mem_append.1 hr).elim (e r) (i2 r)⟩

theorem good_opens {d : Dir} (hd : GoodDir d) : ∃ m d1, Opens d m d1 := by
  obtain ⟨f, b⟩ := d
  rcases hd with e | ⟨m, e, hf, hh⟩
  · dsimp only at e
    subst e
    exact ⟨_, _, .fresh⟩
  · dsimp only at e
    subst e
    exact ⟨_, _, .loads (load_enc hf) ⟨rfl, List.Sublist.refl _, fun _ h _ => h, Or.inl rfl, Or.inl rfl⟩⟩

end FirstOpen
end Jungle
