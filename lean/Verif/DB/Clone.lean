/-
  A cloned manifest: `DB::cloneManifest` and `DBConfig::customManifestPath`.
-/
import Mathlib.Data.List.Forall2
import Verif.DB.LogStoreLemmas

namespace Jungle
open Spec
set_option linter.unusedSectionVars false
variable {K : Type} [LinearOrder K] {S : TableSys K}

/-- `DB::cloneManifest` (src/jungle.cc:319-338) in log-section mode: the manifest file is copied as it was
    stored last (`LogManifest::clone`, src/log_manifest.cc:481-488), after a snapshot handle was opened
    that keeps the log files (`LogMgr::cloneManifest`, src/log_mgr.cc:475-487).  `stored`: the manifest
    file.  `copies`: whether the copy succeeds; neither its result nor that of the snapshot is looked at
    (src/jungle.cc:332-333).  The result: the status, the copy, and the checkpoint of the snapshot
    handle.  Simplification: the manifest of the tables is left out, it lists none. -/
def DB.cloneManifest (db : DB K S) (stored : PMani) (copies : Bool) : Status × Option PMani × Option Nat :=
  if db.check .read ≠ .ok then (db.check .read, none, none)
  else (.ok, if copies then some stored else none, db.getMaxSeqNum)

/-- `DB::open` with `customManifestPath` (src/jungle.cc:69-76, src/log_mgr.cc:98-130): refused unless the
    configuration is read-only and in log-section mode; refused if there is no manifest in this path;
    otherwise the log files that the manifest lists are loaded as they are now.  Read-only, so no file
    is deleted (src/log_mgr.cc:335).  `none`: refused.
    `db`: the state of the database whose files are read.
    Simplifications: nothing is being written while the files are read; they are all read at once. -/
def DB.openClone (cfg : Cfg) (trunc : Bool) (m : Option PMani) (db : DB K S) : Option (DB K S) :=
  if cfg.logSectionOnly = false ∨ cfg.readOnly = false then none
  else m.map (fun m => DB.reopenOnly cfg trunc { db.diskOf with mani := m })

/-- `LogThen db h db' h'`: calls that write lead from `db`, with the history `h`, to `db'`, with the
    history `h'`. -/
inductive LogThen (db0 : DB K S) (h0 : List (Rec K)) : DB K S → List (Rec K) → Prop
  | refl : LogThen db0 h0 db0 h0
  | set {db h} (r : Rec K) (se : Bool) {db'} : LogThen db0 h0 db h → db.Fits 1 → db.FreshSeq r.seq →
      (db.getMaxSeqNum = none → se = false) →
      db.setRecord r se = (.ok, db') →
      LogThen db0 h0 db' (h ++ number (db.getMaxSeqNum.getD 0) [r])
  | setRefused {db h} (r : Rec K) (se : Bool) {st db'} : LogThen db0 h0 db h →
      db.setRecord r se = (st, db') → st ≠ .ok → LogThen db0 h0 db' h
  | batch {db h} (b : List (Rec K)) {db'} : LogThen db0 h0 db h → db.Fits b.length →
      (∀ r ∈ b, r.seq ≤ NIL) →
      db.setRecordBatch b = (.ok, db') →
      LogThen db0 h0 db' (h ++ number (db.getMaxSeqNum.getD 0) b)
  | batchRefused {db h} (b : List (Rec K)) {st db'} : LogThen db0 h0 db h → db.Fits b.length →
      (∀ r ∈ b, r.seq ≤ NIL) →
      db.setRecordBatch b = (st, db') → st ≠ .ok → LogThen db0 h0 db' h
  | sync {db h} {st db'} : LogThen db0 h0 db h → db.sync = (st, db') → LogThen db0 h0 db' h
  | checkpoint {db h} {st db' c} : LogThen db0 h0 db h → db.checkpoint = (st, db', c) → LogThen db0 h0 db' h
  | flags {db h} (c r : Bool) : LogThen db0 h0 db h →
      LogThen db0 h0 { db with closing := c, rollbackInProgress := r } h
  | evict {db h} (num : Nat) : LogThen db0 h0 db h → LogThen db0 h0 { db with log := db.log.evict num } h

theorem LogThen.reach {db0 db : DB K S} {h0 h : List (Rec K)} (h1 : LogReach db0 h0) (ht : LogThen db0 h0 db h) :
    LogReach db h := by
  induction ht with
  | refl => exact h1
  | set r se _ a b c d ih => exact .set r se ih a b c d
  | setRefused r se _ a b ih => exact .setRefused r se ih a b
  | batch b _ a c d ih => exact .batch b ih a c d
  | batchRefused b _ a c d e ih => exact .batchRefused b ih a c d e
  | sync _ a ih => exact .sync ih a
  | checkpoint _ a ih => exact .checkpoint ih a
  | flags c r _ ih => exact .flags c r ih
  | evict n _ ih => exact .evict n ih

theorem LogThen.prefix {db0 db : DB K S} {h0 h : List (Rec K)} (ht : LogThen db0 h0 db h) : h0 <+: h := by
  induction ht with
  | refl => exact List.prefix_refl _
  | set r se _ a b c d ih => exact ih.trans (List.prefix_append _ _)
  | setRefused r se _ a b ih => exact ih
  | batch b _ a c d ih => exact ih.trans (List.prefix_append _ _)
  | batchRefused b _ a c d e ih => exact ih
  | sync _ a ih => exact ih
  | checkpoint _ a ih => exact ih
  | flags c r _ ih => exact ih
  | evict n _ ih => exact ih

/-! ### what happens to a log file while records are written -/

/-- A log file and what became of it. -/
structure FileGrows (f f' : LogFile K) : Prop where
  num : f'.num = f.num
  disk : f.disk <+: f'.disk
  bySeq : f.mem.bySeq <+: f'.mem.bySeq
  min : f.mem.maxSeqNum ≠ NIL → f'.mem.minSeqNum = f.mem.minSeqNum
  max : f.mem.maxSeqNum ≠ NIL → f'.mem.maxSeqNum ≠ NIL
  flushed : f'.mem.flushedSeqNum = f.mem.flushedSeqNum

theorem FileGrows.refl (f : LogFile K) : FileGrows f f :=
  ⟨rfl, List.prefix_refl _, List.prefix_refl _, fun _ => rfl, id, rfl⟩

theorem FileGrows.trans {a b c : LogFile K} (h : FileGrows a b) (h' : FileGrows b c) : FileGrows a c :=
  ⟨h'.num.trans h.num, h.disk.trans h'.disk, h.bySeq.trans h'.bySeq,
    fun e => (h'.min (h.max e)).trans (h.min e), fun e => h'.max (h.max e), h'.flushed.trans h.flushed⟩

theorem forall2_refl (L : List (LogFile K)) : List.Forall₂ FileGrows L L := by
  induction L with
  | nil => exact .nil
  | cons a L ih => exact .cons (FileGrows.refl a) ih

theorem forall2_trans {A B C : List (LogFile K)} (h : List.Forall₂ FileGrows A B) (h' : List.Forall₂ FileGrows B C) :
    List.Forall₂ FileGrows A C := by
  induction h generalizing C with
  | nil => cases h'; exact .nil
  | cons a _ ih =>
    cases h' with
    | cons b t => exact .cons (a.trans b) (ih t)

theorem forall2_append {A B C D : List (LogFile K)} (h : List.Forall₂ FileGrows A B) (h' : List.Forall₂ FileGrows C D) :
    List.Forall₂ FileGrows (A ++ C) (B ++ D) := by
  induction h with
  | nil => exact h'
  | cons a _ ih => exact .cons a ih

theorem forall2_map {L : List (LogFile K)} (g : LogFile K → LogFile K) (h : ∀ f ∈ L, FileGrows f (g f)) :
    List.Forall₂ FileGrows L (L.map g) := by
  induction L with
  | nil => exact .nil
  | cons a L ih => exact .cons (h a (by simp)) (ih (fun f hf => h f (by simp [hf])))

/-- The log section and what became of it. -/
structure LogGrows (l l' : LogMgr K) : Prop where
  files : ∃ F G, l'.files = F ++ G ∧ List.Forall₂ FileGrows l.files F
  flushed : l'.lastFlushed = l.lastFlushed
  synced : l.lastSynced ≠ NIL → l'.lastSynced ≠ NIL ∧ l.lastSynced ≤ l'.lastSynced

theorem LogGrows.refl (l : LogMgr K) : LogGrows l l :=
  ⟨⟨l.files, [], by simp, forall2_refl _⟩, rfl, fun h => ⟨h, Nat.le_refl _⟩⟩

theorem forall2_split {A B F : List (LogFile K)} (h : List.Forall₂ FileGrows (A ++ B) F) :
    ∃ F1 F2, F = F1 ++ F2 ∧ List.Forall₂ FileGrows A F1 ∧ List.Forall₂ FileGrows B F2 := by
  induction A generalizing F with
  | nil => exact ⟨[], F, rfl, .nil, h⟩
  | cons a A ih =>
    cases h with
    | cons b t =>
      obtain ⟨F1, F2, e, h1, h2⟩ := ih t
      exact ⟨_ :: F1, F2, by rw [e]; rfl, .cons b h1, h2⟩

theorem LogGrows.trans {a b c : LogMgr K} (h : LogGrows a b) (h' : LogGrows b c) : LogGrows a c := by
  obtain ⟨F, G, e, hF⟩ := h.files
  obtain ⟨F', G', e', hF'⟩ := h'.files
  rw [e] at hF'
  obtain ⟨F1, F2, e1, h1, h2⟩ := forall2_split hF'
  refine ⟨⟨F1, F2 ++ G', by rw [e', e1, List.append_assoc], forall2_trans hF h1⟩, h'.flushed.trans h.flushed, fun hs => ?_⟩
  obtain ⟨s1, s2⟩ := h.synced hs
  obtain ⟨s3, s4⟩ := h'.synced s1
  exact ⟨s3, Nat.le_trans s2 s4⟩

theorem PutStep.grows {l l' : LogMgr K} (hp : PutStep l l') : LogGrows l l' := by
  cases hp with
  | @same fs f m' r s hf hput h0 hN hgt =>
    refine ⟨⟨fs ++ [{ f with mem := m' }], [], by simp, ?_⟩, rfl, fun h => ⟨h, Nat.le_refl _⟩⟩
    rw [hf]
    refine forall2_append (forall2_refl _) (.cons ⟨rfl, List.prefix_refl _, ?_, fun e => ?_, fun _ => ?_, hput.flushed⟩ .nil)
    · show _ <+: m'.bySeq
      rw [hput.bySeq]; exact List.prefix_append _ _
    · show m'.minSeqNum = _
      rw [hput.min, if_neg e]
    · show m'.maxSeqNum ≠ NIL
      rw [hput.max]; omega
  | @new fs f m' r s hf hm hput h0 hN =>
    refine ⟨⟨fs ++ [f], [_], rfl, ?_⟩, rfl, fun h => ⟨h, Nat.le_refl _⟩⟩
    rw [hf]
    exact forall2_refl _

theorem PutSteps.grows {l l' : LogMgr K} (hp : PutSteps l l') : LogGrows l l' := by
  induction hp with
  | refl => exact LogGrows.refl _
  | step h _ _ _ ih => exact h.grows.trans ih

theorem LRInv.sync_grows {l l' : LogMgr K} {B} (h : LRInv l B) {st} (hs : l.sync = (st, l')) : LogGrows l l' := by
  rw [h.log.sync_eq h.store] at hs
  cases hs
  refine ⟨⟨l.files.map l.syncOne, [], by simp, forall2_map _ (fun f hf => ?_)⟩, rfl, fun hn => ⟨Nat.ne_of_lt h.log.numN, ?_⟩⟩
  · have hr := h.log.syncOne_rel hf
    exact ⟨hr.num, (h.store.syncOne h.log hf).2.1, by rw [hr.bySeq]; exact List.prefix_refl _, fun _ => hr.min,
      fun e => by rw [hr.max]; exact e, hr.flushed⟩
  · rcases h.log.lastS with h1 | h1
    · exact absurd h1 hn
    · exact h1.2

theorem LRInv.checkpoint_grows {l : LogMgr K} {B} (h : LRInv l B) : LogGrows l l.checkpoint.1 := by
  obtain ⟨fs, f, hf⟩ := h.log.split_last
  have hff : f ∈ l.files := by rw [hf]; simp
  have hfi : l.file? l.maxNum = some f := by
    rw [← h.log.last_num hf]; exact h.log.file?_mem hff
  unfold LogMgr.checkpoint
  simp only [hfi]
  rw [h.log.setFile_last (f' := { f with mem := f.mem.checkpoint.1, coldChk := f.coldChk || f.immutable }) hf rfl]
  refine ⟨⟨_, [], by simp; rfl, ?_⟩, rfl, fun h => ⟨h, Nat.le_refl _⟩⟩
  rw [hf]
  refine forall2_append (forall2_refl _) (.cons ?_ .nil)
  have key : f.mem.checkpoint.1.bySeq = f.mem.bySeq ∧
      f.mem.checkpoint.1.flushedSeqNum = f.mem.flushedSeqNum ∧ f.mem.checkpoint.1.minSeqNum = f.mem.minSeqNum ∧
      f.mem.checkpoint.1.maxSeqNum = f.mem.maxSeqNum := by
    unfold MemTable.checkpoint
    split
    · exact ⟨rfl, rfl, rfl, rfl⟩
    · split <;> exact ⟨rfl, rfl, rfl, rfl⟩
  obtain ⟨k1, k2, k3, k4⟩ := key
  exact ⟨rfl, List.prefix_refl _, by show _ <+: f.mem.checkpoint.1.bySeq; rw [k1]; exact List.prefix_refl _, fun _ => k3,
    fun e => by show f.mem.checkpoint.1.maxSeqNum ≠ NIL; rw [k4]; exact e, k2⟩

theorem LRInv.evict_grows {l : LogMgr K} {B} (h : LRInv l B) (num : Nat) : LogGrows l (l.evict num) := by
  unfold LogMgr.evict
  cases hf : l.file? num with
  | none => exact LogGrows.refl _
  | some f =>
    simp only []
    by_cases hc : l.lastSynced ≠ NIL ∧ num ≠ l.minNum ∧ num < l.lastSynced ∧ f.immutable = true
    · rw [if_pos hc]
      obtain ⟨c1, c2, c3, c4⟩ := hc
      have hff : f ∈ l.files := List.mem_of_find?_eq_some hf
      have hfn : f.num = num := by
        have := List.find?_some hf; simpa using this
      have hsf : l.syncFrom = l.lastSynced := by unfold LogMgr.syncFrom; rw [if_pos c1]
      have hlt : f.num < l.maxNum := by
        rcases h.log.lastS with h1 | h1
        · exact absurd h1 c1
        · omega
      have hs := h.store.lo f hff (by rw [hsf, hfn]; exact c3)
      have hx := h.reload_same hff (h.log.ne_last hff hlt) hs
      refine ⟨⟨l.files.map (fun g => if g.num == f.reload.num then f.reload else g), [], by rw [List.append_nil]; rfl,
        forall2_map _ (fun g hg => ?_)⟩, rfl, fun h => ⟨h, Nat.le_refl _⟩⟩
      by_cases e : g.num = f.reload.num
      · rw [if_pos (by simpa using e)]
        rw [hx.num] at e
        rw [h.log.same_num hg hff e]
        exact ⟨hx.num, by rw [hx.disk]; exact List.prefix_refl _, by rw [hx.bySeq]; exact List.prefix_refl _, fun _ => hx.min,
          fun e => by rw [hx.max]; exact e, hx.flushed⟩
      · rw [if_neg (by simpa using e)]; exact FileGrows.refl g
    · rw [if_neg hc]; exact LogGrows.refl _

theorem LogThen.grows {db0 db : DB K S} {h0 h : List (Rec K)} (h1 : LogReach db0 h0) (ht : LogThen db0 h0 db h) :
    LogGrows db0.log db.log := by
  induction ht with
  | refl => exact LogGrows.refl _
  | @set db h r se db' hp hfit hseq hse hs ih =>
    refine ih.trans ?_
    have hL := (hp.reach h1).inv.log.log
    unfold DB.setRecord at hs
    split at hs
    · next hc => exact absurd (congrArg Prod.fst hs) hc
    · have e1 : (db.log.setSN r se).1 = .ok := congrArg Prod.fst hs
      have e2 : ({ db with log := (db.log.setSN r se).2 } : DB K S) = db' := congrArg Prod.snd hs
      have h0 : r.seq ≠ 0 := by
        intro h0
        unfold LogMgr.setSN at e1
        rw [if_neg (by simp [hL.rw]), if_pos h0] at e1
        cases e1
      have hok : db.log.seqOk r.seq := by
        rcases hseq with hn | ⟨hn, hm⟩
        · left; refine ⟨hn, ?_⟩; rw [hL.nextSeq_eq]; exact hfit.1
        · right; exact ⟨by omega, hn, hm⟩
      obtain ⟨s, l', hs', ho⟩ := hL.setSN r se hok hfit.2 hse
      rw [← e2]
      show LogGrows db.log (db.log.setSN r se).2
      rw [hs']
      exact ho.step.grows
  | @setRefused db h r se st db' hp hs hst ih =>
    refine ih.trans ?_
    have hL := (hp.reach h1).inv.log.log
    unfold DB.setRecord at hs
    split at hs
    · cases hs; exact LogGrows.refl _
    · have e1 : (db.log.setSN r se).1 = st := congrArg Prod.fst hs
      have e2 : ({ db with log := (db.log.setSN r se).2 } : DB K S) = db' := congrArg Prod.snd hs
      have h2 := hL.setSN_refused r se (st := st) (l' := (db.log.setSN r se).2) (Prod.ext e1 rfl) hst
      rw [← e2, h2]; exact LogGrows.refl _
  | @batch db h b db' hp hfit hN hs ih =>
    refine ih.trans ?_
    have hL := (hp.reach h1).inv.log.log
    have hroom : db.log.nextSeq + b.length ≤ NIL := by
      rw [hL.nextSeq_eq]; have := hfit.1; unfold DB.getMaxSeqNum at this; omega
    unfold DB.setRecordBatch at hs
    split at hs
    · next hc => exact absurd (congrArg Prod.fst hs) hc
    · have e2 : ({ db with log := (db.log.setMulti b).2 } : DB K S) = db' := congrArg Prod.snd hs
      rw [← e2]
      show LogGrows db.log (db.log.setMulti b).2
      rcases hL.setMulti b hN hroom with ⟨-, -, l', hm, ho⟩ | ⟨-, hm⟩
      · rw [hm]; exact ho.steps.grows
      · rw [hm]; exact LogGrows.refl _
  | @batchRefused db h b st db' hp hfit hN hs hst ih =>
    refine ih.trans ?_
    have hL := (hp.reach h1).inv.log.log
    have hroom : db.log.nextSeq + b.length ≤ NIL := by
      rw [hL.nextSeq_eq]; have := hfit.1; unfold DB.getMaxSeqNum at this; omega
    unfold DB.setRecordBatch at hs
    split at hs
    · cases hs; exact LogGrows.refl _
    · have e2 : ({ db with log := (db.log.setMulti b).2 } : DB K S) = db' := congrArg Prod.snd hs
      rw [← e2]
      show LogGrows db.log (db.log.setMulti b).2
      rcases hL.setMulti b hN hroom with ⟨-, -, l', hm, ho⟩ | ⟨-, hm⟩
      · rw [hm]; exact ho.steps.grows
      · rw [hm]; exact LogGrows.refl _
  | @sync db h st db' hp hs ih =>
    refine ih.trans ?_
    have hL := (hp.reach h1).inv.log
    unfold DB.sync at hs
    split at hs
    · cases hs; exact LogGrows.refl _
    · have e2 : ({ db with log := db.log.sync.2 } : DB K S) = db' := congrArg Prod.snd hs
      rw [← e2]
      exact hL.sync_grows (st := db.log.sync.1) rfl
  | @checkpoint db h st db' c hp hs ih =>
    refine ih.trans ?_
    have hL := (hp.reach h1).inv.log
    unfold DB.checkpoint at hs
    have e2 : ({ db with log := db.log.checkpoint.1.sync.2 } : DB K S) = db' := congrArg (fun x => x.2.1) hs
    rw [← e2]
    exact hL.checkpoint_grows.trans (hL.checkpoint.sync_grows (st := db.log.checkpoint.1.sync.1) rfl)
  | flags c r _ ih => exact ih
  | @evict db h n hp ih => exact ih.trans ((hp.reach h1).inv.log.evict_grows n)

/-! ### the older log files alone -/

/-- The log section with its first log files only, the last of them being the number `n`, taken to be
    synced up to it. -/
def LogMgr.front (l : LogMgr K) (F : List (LogFile K)) (n : Nat) : LogMgr K :=
  { l with files := F, maxNum := n, lastSynced := n }

theorem LRInv.front {l : LogMgr K} {B} (h : LRInv l B) {F G : List (LogFile K)} (hF : l.files = F ++ G) {fs g}
    (hg : F = fs ++ [g]) (hne : g.mem.maxSeqNum ≠ NIL) (hls : l.lastSynced ≠ NIL) (hle : g.num ≤ l.lastSynced) :
    LRInv (l.front F g.num) (F.flatMap LogFile.pending) ∧ F.flatMap LogFile.pending <+: B := by
  have hL := h.log
  have hFne : F ≠ [] := by rw [hg]; simp
  have hmem : ∀ f ∈ F, f ∈ l.files := fun f hf => by rw [hF]; simp [hf]
  have hgF : g ∈ F := by rw [hg]; simp
  have hgr := hL.num_range (hmem g hgF)
  have hN := hL.numN
  have hmin' : (l.front F g.num).minNum = l.minNum := by
    unfold LogMgr.minNum LogMgr.front
    rw [hF]
    cases F with
    | nil => exact absurd rfl hFne
    | cons f fs => rfl
  have hsf : l.syncFrom = l.lastSynced := by unfold LogMgr.syncFrom; rw [if_pos hls]
  have hgN : g.num ≠ NIL := by omega
  have hsf' : (l.front F g.num).syncFrom = g.num := by
    unfold LogMgr.syncFrom LogMgr.front; exact if_pos hgN
  have ho := hL.order
  rw [hF] at ho
  have ho1 := (List.pairwise_append.1 ho).1
  have hlast : ∀ f ∈ F, f = g ∨ (f.num < g.num ∧ f.mem.maxSeqNum ≤ g.mem.maxSeqNum) := by
    intro f hf
    rw [hg] at hf ho1
    rcases List.mem_append.1 hf with h1 | h1
    · have hb := (List.pairwise_append.1 ho1).2.2 f h1 g (by simp)
      exact Or.inr ⟨hb.num, (hb.max hb.ne).2⟩
    · exact Or.inl (List.mem_singleton.1 h1)
  have hB : B = F.flatMap LogFile.pending ++ G.flatMap LogFile.pending := by
    rw [hL.pend, hF]; simp [List.flatMap_append]
  refine ⟨⟨⟨hL.rw, hL.noOv, hL.bar, hFne, ?_, by show g.num < NIL; omega, fun f hf => hL.wf f (hmem f hf),
    fun f hf => hL.own f (hmem f hf), hL.entries, fun f hf => hL.emptyW f (hmem f hf), fun f hf => hL.emptyS f (hmem f hf),
    ho1, by rw [hmin']; exact hL.lastF, ?_, ?_, fun _ _ _ r hr => (by cases hr), rfl, ?_, ?_⟩, ⟨fun f hf => h.store.ok f (hmem f hf),
    ?_, ?_, ?_, ?_⟩, ⟨fun f hf => h.low.fl f (hmem f hf), fun f hf => h.low.mn f (hmem f hf), fun f hf => h.low.tp f (hmem f hf),
    fun f hf => h.low.sy f (hmem f hf)⟩⟩, ⟨G.flatMap LogFile.pending, hB.symm⟩⟩
  · obtain ⟨a, n1, n2⟩ := hL.nums
    rw [hF] at n1
    have hp := range'_prefix (X := F.map (·.num)) (Y := G.map (·.num)) (a := a) (n := (F ++ G).length) (by rw [← n1]; simp)
    rw [List.length_map] at hp
    refine ⟨a, hp, ?_⟩
    show g.num + 1 = a + F.length
    have h1 : (F.map (·.num))[fs.length]? = some g.num := by rw [hg]; simp
    rw [hp] at h1
    have hl : F.length = fs.length + 1 := by rw [hg]; simp
    rw [hl] at h1 ⊢
    simp at h1
    omega
  · right; rw [hmin']; exact ⟨hgr.1, Nat.le_refl _⟩
  · intro _ f hf hlt hm
    rw [hmin'] at hlt
    refine hL.syncedLe hls f (hmem f hf) ?_ hm
    have hlt' : f.num < g.num ∨ f.num = g.num ∧ l.minNum < g.num := hlt
    rcases hlt' with h1 | h1
    · left; omega
    · by_cases e : g.num < l.lastSynced
      · left; omega
      · right; omega
  · have : Increasing B := hL.inc
    rw [hB] at this
    exact (List.pairwise_append.1 this).1
  · intro fs' f' hf'
    have e : fs' ++ [f'] = fs ++ [g] := by rw [← hg]; exact hf'.symm
    have e' := (List.append_inj_right' e rfl)
    simp only [List.cons.injEq, and_true] at e'
    subst e'
    refine ⟨fun e => absurd e hne, fun _ r hr => ?_⟩
    simp only [List.nil_append] at hr
    obtain ⟨x, hx, hrx⟩ := List.mem_flatMap.1 hr
    have hb := ((hL.wf x (hmem x hx)).bound r (pending_sub hrx)).2.1
    rcases hlast x hx with rfl | h1
    · exact hb
    · omega
  · intro f hf; rw [hsf']; intro h1; exact h.store.lo f (hmem f hf) (by rw [hsf]; omega)
  · intro f hf; rw [hsf']; intro h1
    rcases hlast f hf with rfl | h2
    · omega
    · omega
  · intro f hf; rw [hmin']; exact h.store.disk f (hmem f hf)
  · intro f hf _; right; exact hsf'

theorem prefix_of_subset {X Y h : List (Rec K)} (hi : Increasing h) (hX : X <+: h) (hY : Y <+: h)
    (hs : ∀ r ∈ X, r ∈ Y) : X <+: Y := by
  rcases Nat.le_total X.length Y.length with hl | hl
  · exact List.prefix_of_prefix_length_le hX hY hl
  · obtain ⟨t, ht⟩ := List.prefix_of_prefix_length_le hY hX hl
    cases t with
    | nil => rw [← ht]; simp
    | cons x t =>
      exfalso
      have hx : x ∈ Y := hs x (by rw [← ht]; simp)
      obtain ⟨u, hu⟩ := hX
      rw [← hu, ← ht] at hi
      have := (List.pairwise_append.1 (List.pairwise_append.1 hi).1).2.2 x hx x (by simp)
      omega

theorem forall2_right {A F : List (LogFile K)} (h : List.Forall₂ FileGrows A F) {f' : LogFile K} (hf : f' ∈ F) :
    ∃ f ∈ A, FileGrows f f' := by
  induction h with
  | nil => cases hf
  | cons a _ ih =>
    rcases List.mem_cons.1 hf with rfl | h1
    · exact ⟨_, List.mem_cons_self, a⟩
    · obtain ⟨f, h2, h3⟩ := ih h1
      exact ⟨f, List.mem_cons_of_mem _ h2, h3⟩

theorem forall2_left {A F : List (LogFile K)} (h : List.Forall₂ FileGrows A F) {f : LogFile K} (hf : f ∈ A) :
    ∃ f' ∈ F, FileGrows f f' := by
  induction h with
  | nil => cases hf
  | cons a _ ih =>
    rcases List.mem_cons.1 hf with rfl | h1
    · exact ⟨_, List.mem_cons_self, a⟩
    · obtain ⟨f, h2, h3⟩ := ih h1
      exact ⟨f, List.mem_cons_of_mem _ h2, h3⟩

theorem forall2_entries {A F : List (LogFile K)} (h : List.Forall₂ FileGrows A F)
    (hm : ∀ f ∈ A, f.mem.maxSeqNum ≠ NIL) :
    A.map (fun f => (f.num, f.mem.minSeqNum, f.mem.flushedSeqNum)) =
      F.map (fun f => (f.num, f.mem.minSeqNum, f.mem.flushedSeqNum)) := by
  induction h with
  | nil => rfl
  | @cons a b _ _ h1 _ ih =>
    simp only [List.map_cons]
    rw [ih (fun f hf => hm f (List.mem_cons_of_mem _ hf)), h1.num, h1.min (hm a List.mem_cons_self), h1.flushed]

/-- What a manifest stored by a sync shows of the log files as they are later. -/
theorem LDInv.clone {db db' : DB K S} {B B'} (h : LDInv db B) (h' : LDInv db' B') (hne : B ≠ []) (hp : B <+: B')
    (hls : db.log.lastSynced = db.log.maxNum)
    (hs : ∀ f ∈ db.log.files, f.mem.maxSeqNum ≠ NIL → f.mem.syncedSeqNum = f.mem.maxSeqNum)
    (hgr : LogGrows db.log db'.log) :
    ∃ B'', B <+: B'' ∧ B'' <+: B' ∧ ∀ (cfg : Cfg) (trunc : Bool), cfg.LogOnly → (trunc = true → Consecutive B) →
      LDInv (DB.reopenOnly cfg trunc { db'.diskOf with mani := db.log.persist }) B'' := by
  obtain ⟨ls, lg, hlg⟩ := h.log.log.split_last
  have hlgf : lg ∈ db.log.files := by rw [hlg]; simp
  have hlgm : lg.mem.maxSeqNum ≠ NIL := fun e => hne ((h.log.log.top ls lg hlg).1 e).1
  have hN := h.log.log.numN
  have hm : ∀ f ∈ db.log.files, f.mem.maxSeqNum ≠ NIL := by
    intro f hf
    have ho := h.log.log.order
    rw [hlg] at ho hf
    rcases List.mem_append.1 hf with h1 | h1
    · exact ((List.pairwise_append.1 ho).2.2 f h1 lg (by simp)).ne
    · rw [List.mem_singleton.1 h1]; exact hlgm
  obtain ⟨F, G, hF, h2⟩ := hgr.files
  have hsplit : ∃ fs g, F = fs ++ [g] ∧ FileGrows lg g := by
    rw [hlg] at h2
    obtain ⟨F1, F2, e, -, k⟩ := forall2_split h2
    cases k with
    | cons a t => cases t; exact ⟨F1, _, e, a⟩
  obtain ⟨fs, g, hg, hlgg⟩ := hsplit
  have hgn : g.num = db.log.maxNum := by rw [hlgg.num]; exact h.log.log.last_num hlg
  obtain ⟨hls1, hls2⟩ := hgr.synced (by rw [hls]; omega)
  rw [hls] at hls2
  obtain ⟨hI, hpre⟩ := h'.log.front hF hg (hlgg.max hlgm) hls1 (by omega)
  have hmemF : ∀ f ∈ F, f ∈ db'.log.files := fun f hf => by rw [hF]; simp [hf]
  -- everything the files had at the sync is on disk
  have hdisk : ∀ f ∈ db.log.files, dataOf f.disk = f.mem.bySeq := by
    intro f hf
    rw [h.log.disk_eq hf (by rw [hs f hf (hm f hf)]; exact hm f hf), hs f hf (hm f hf)]
    exact cutAt_all (fun r hr => ((h.log.log.wf f hf).bound r hr).2.1)
  have hsyn : ∀ f' ∈ F, ∀ f ∈ db.log.files, FileGrows f f' →
      f'.mem.syncedSeqNum ≠ NIL ∧ ∀ r ∈ f.mem.bySeq, r ∈ f'.mem.bySeq ∧ r.seq ≤ f'.mem.syncedSeqNum := by
    intro f' hf' f hf hfg
    have hok := h'.log.store.ok f' (hmemF f' hf')
    have hsub : ∀ r ∈ f.mem.bySeq, r ∈ dataOf f'.disk := by
      intro r hr
      rw [← hdisk f hf] at hr
      obtain ⟨t, ht⟩ := hfg.disk
      rw [← ht, dataOf_append]
      exact List.mem_append_left _ hr
    obtain ⟨x, hx, -⟩ := h.log.low.tp f hf (hm f hf)
    have hn : f'.mem.syncedSeqNum ≠ NIL := by
      intro e
      have := hsub x hx
      rw [hok.nil e] at this; cases this
    refine ⟨hn, fun r hr => ⟨hok.sub r (hsub r hr), hok.le hn r (hsub r hr)⟩⟩
  obtain ⟨q, hD, hr, hq⟩ := hI.left (disk := db'.diskOf.files) rfl
    (fun f' hf' => by
      obtain ⟨f, hf, hfg⟩ := forall2_right h2 hf'
      exact (hsyn f' hf' f hf hfg).1)
    (fun f' hf' => by
      refine ⟨f'.disk, ?_, List.prefix_refl _, (hI.store.syncOne hI.log hf').2.1⟩
      have := find_map_onDisk h'.log.log (hmemF f' hf')
      unfold DB.diskOf
      rw [this]
      unfold LogFile.onDisk
      rw [(h'.log.store.ok f' (hmemF f' hf')).torn]; rfl)
  have hB'' : upTo (F.flatMap LogFile.pending) q <+: F.flatMap LogFile.pending := by
    have hi : Increasing (F.flatMap LogFile.pending) := hI.log.inc
    revert hi
    generalize F.flatMap LogFile.pending = L
    intro hi
    induction L with
    | nil => exact List.prefix_refl _
    | cons a h ih =>
      obtain ⟨h1, h2⟩ := List.pairwise_cons.1 hi
      unfold upTo
      by_cases e : a.seq ≤ q
      · rw [List.filter_cons_of_pos (by simpa using e)]
        exact (List.prefix_cons_inj a).2 (ih h2)
      · rw [List.filter_cons_of_neg (by simpa using e), List.filter_eq_nil_iff.2 (fun r hr => by
          have := h1 r hr; simp; omega)]
        exact List.nil_prefix
  refine ⟨upTo (F.flatMap LogFile.pending) q, ?_, hB''.trans hpre, fun cfg trunc hc ht => ?_⟩
  · refine prefix_of_subset h'.log.log.inc hp (hB''.trans hpre) (fun r hr => ?_)
    rw [h.log.log.pend] at hr
    obtain ⟨f, hf, hrf⟩ := List.mem_flatMap.1 hr
    obtain ⟨f', hf', hfg⟩ := forall2_left h2 hf
    obtain ⟨h3, h4⟩ := (hsyn f' hf' f hf hfg).2 r (pending_sub hrf)
    refine List.mem_filter.2 ⟨List.mem_flatMap.2 ⟨f', hf', ?_⟩, ?_⟩
    · rw [pending_nil (h'.log.low.fl f' (hmemF f' hf'))]; exact h3
    · have := hq f' hf'
      simp; omega
  · have hs' : ∀ f ∈ db.log.files, f.mem.syncedSeqNum ≠ NIL := fun f hf => by rw [hs f hf (hm f hf)]; exact hm f hf
    have hok : trunc = true → okEntries NIL db.log.persist.entries := fun h1 => h.log.passes hls hs' (ht h1)
    have hD' : (db'.log.front F g.num).Durable db.log.persist db'.diskOf.files q := by
      refine ⟨?_, hgn.symm, hgr.flushed.symm, ?_, hD.min, hD.disk⟩
      · show (db.log.persist.entries.map _) = F.map _
        rw [← forall2_entries h2 hm]
        simp only [LogMgr.persist, List.map_map]; rfl
      · right
        show db.log.lastSynced ≤ g.num
        omega
    obtain ⟨-, hR⟩ := hI.reloaded hD hc.rw hc.noOverwrite hc.entries false (fun h => by cases h)
    have el : (DB.reopenOnly cfg trunc { db'.diskOf with mani := db.log.persist }).log =
        (db'.log.front F g.num).reloaded cfg db'.diskOf.files := by
      show LogMgr.recoverOnly cfg trunc db.log.persist db'.diskOf.files = _
      rw [recoverOnly_eq cfg trunc _ _ hok]
      exact hD'.recover hI.log cfg
    exact LDInv.ofLR (by rw [el]; exact hR) (by rw [el]; exact hc.only)

end Jungle
