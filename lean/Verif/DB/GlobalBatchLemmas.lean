/-
  Invariant of the executions of a global batch.
-/
import Verif.DB.GlobalBatch
import Verif.Props.Log

namespace Jungle
open Spec MemTable
set_option linter.unusedSectionVars false
variable {K : Type} [LinearOrder K] {S : TableSys K}

theorem setMultiInternal_append (l : LogMgr K) (xs ys : List (Rec K)) {l1 : LogMgr K}
    (h : l.setMultiInternal xs = (.ok, l1)) : l.setMultiInternal (xs ++ ys) = l1.setMultiInternal ys := by
  induction xs generalizing l with
  | nil => cases h; rfl
  | cons r rs ih =>
    rw [LogMgr.setMultiInternal] at h
    rw [List.cons_append, LogMgr.setMultiInternal]
    cases hf : l.file? l.maxNum with
    | none => rw [hf] at h; cases congrArg Prod.fst h
    | some f =>
      rw [hf] at h
      simp only [] at h ⊢
      split at h
      · next hst => exact absurd (congrArg Prod.fst h) hst
      · next hst => rw [if_neg hst]; exact ih _ h

/-! ### Runs -/

namespace GRun

theorem after_add (n : Nat) (s : GRun K S) (t u : Nat) : after n s (t + u) = after n (after n s t) u := by
  induction t generalizing s with
  | zero => simp [after]
  | succ t ih => rw [Nat.succ_add]; exact ih _

theorem after_nil {n : Nat} {s : GRun K S} (h : s.code = []) (t : Nat) : after n s t = s := by
  induction t with
  | zero => rfl
  | succ t ih =>
    have : step n s = s := by unfold step; rw [h]
    show after n (step n s) t = s
    rw [this, ih]

/-- `s` leads to `s'`, and `P` holds all the way. -/
def Runs (n : Nat) (P : GRun K S → Prop) (s s' : GRun K S) : Prop :=
  ∃ t, after n s t = s' ∧ ∀ u, u ≤ t → P (after n s u)

theorem Runs.refl {n} {P : GRun K S → Prop} {s} (h : P s) : Runs n P s s :=
  ⟨0, rfl, fun u hu => by rw [Nat.le_zero.1 hu]; exact h⟩

theorem Runs.trans {n} {P : GRun K S → Prop} {s s1 s2} (h1 : Runs n P s s1) (h2 : Runs n P s1 s2) : Runs n P s s2 := by
  obtain ⟨t, ht, hp⟩ := h1
  obtain ⟨u, hu, hq⟩ := h2
  refine ⟨t + u, by rw [after_add, ht, hu], fun v hv => ?_⟩
  by_cases h : v ≤ t
  · exact hp v h
  · have : v = t + (v - t) := by omega
    rw [this, after_add, ht]
    exact hq _ (by omega)

theorem Runs.step {n} {P : GRun K S → Prop} {s s' : GRun K S} (h : P s) (he : GRun.step n s = s') (h' : P s') : Runs n P s s' :=
  ⟨1, he, fun u hu => by
    rcases Nat.le_one_iff_eq_zero_or_eq_one.1 hu with rfl | rfl
    · exact h
    · show P (GRun.step n s); rw [he]; exact h'⟩

theorem Runs.all {n} {P : GRun K S → Prop} {s s' : GRun K S} (h : Runs n P s s') (hc : s'.code = []) :
    (∀ t, P (after n s t)) ∧ ∃ T, ∀ t, T ≤ t → after n s t = s' := by
  obtain ⟨T, hT, hp⟩ := h
  have hs : ∀ t, T ≤ t → after n s t = s' := by
    intro t ht
    have : t = T + (t - T) := by omega
    rw [this, after_add, hT, after_nil hc]
  refine ⟨fun t => ?_, T, hs⟩
  by_cases h : t ≤ T
  · exact hp t h
  · rw [hs t (by omega), ← hT]; exact hp T (Nat.le_refl _)

/-- The same block of code for one DB after the other. -/
theorem phase {n : Nat} {P : GRun K S → Prop} (is : List Nat) (hnd : is.Nodup) (c : Nat → List (GInstr K))
    (pre post : Nat → GDb K S → Prop) (v : Bool) (st : Status)
    (hb : ∀ i ∈ is, ∀ (s : GRun K S) rest, s.code = c i ++ rest → s.visible = v → s.status = st → pre i (s.dbs i) → P s →
      ∃ g', post i g' ∧ Runs n P s (s.upd i g' rest)) :
    ∀ (s : GRun K S) rest, s.code = is.flatMap c ++ rest → s.visible = v → s.status = st →
      (∀ i ∈ is, pre i (s.dbs i)) → P s →
      ∃ s' : GRun K S, Runs n P s s' ∧ s'.code = rest ∧ s'.visible = v ∧ s'.status = st ∧
        (∀ i ∈ is, post i (s'.dbs i)) ∧ ∀ i, i ∉ is → s'.dbs i = s.dbs i := by
  induction is with
  | nil =>
    intro s rest h1 h2 h3 _ hP
    exact ⟨s, Runs.refl hP, by simpa using h1, h2, h3, fun i hi => (by cases hi), fun _ _ => rfl⟩
  | cons i is ih =>
    intro s rest h1 h2 h3 h4 hP
    obtain ⟨hni, hnd'⟩ := List.nodup_cons.1 hnd
    obtain ⟨g', hg, hr⟩ := hb i List.mem_cons_self s (is.flatMap c ++ rest)
      (by rw [h1]; simp) h2 h3 (h4 i List.mem_cons_self) hP
    have hP' : P (s.upd i g' (is.flatMap c ++ rest)) := by
      obtain ⟨t, ht, hp⟩ := hr
      have := hp t (Nat.le_refl _)
      rwa [ht] at this
    obtain ⟨s', r1, r2, r3, r4, r5, r6⟩ := ih hnd' (fun j hj => hb j (List.mem_cons_of_mem _ hj))
      (s.upd i g' (is.flatMap c ++ rest)) rest rfl h2 h3 (fun j hj => by
        have : j ≠ i := fun e => hni (e ▸ hj)
        show pre j (if j = i then g' else s.dbs j)
        rw [if_neg this]; exact h4 j (List.mem_cons_of_mem _ hj)) hP'
    refine ⟨s', hr.trans r1, r2, r3, r4, fun j hj => ?_, fun j hj => ?_⟩
    · rcases List.mem_cons.1 hj with rfl | hj
      · rw [r6 j hni]
        show post j (if j = j then g' else s.dbs j)
        rw [if_pos rfl]; exact hg
      · exact r5 j hj
    · have h7 : j ≠ i := fun e => hj (e ▸ List.mem_cons_self)
      rw [r6 j (fun h => hj (List.mem_cons_of_mem _ h))]
      show (if j = i then g' else s.dbs j) = s.dbs j
      rw [if_neg h7]

end GRun

/-! ### One DB -/

/-- The DB with the whole batch in its log, before the barrier is removed. -/
def DB.filled (db : DB K S) (b : List (Rec K)) : DB K S := db.duringBatch b b.length

/-- What holds of one DB at every moment of the batch. -/
def GOk (db : DB K S) (b : List (Rec K)) (m : Nat) : Bool → GDb K S → Prop
  | false, g => g.db = db ∨ g.db = db.duringBatch b 0 ∨ (db.ValidBatch b ∧ db.getMaxSeqNum ≠ none ∧ ∃ j, g.db = db.duringBatch b j)
  | true, g => db.ValidBatch b ∧
      ((g.db = db.filled b ∧ g.fwd = m ∧ g.attached = true) ∨
       (g.db = (db.setRecordBatch b).2 ∧ (g.attached = true → g.fwd = m)))

structure GPre (db : DB K S) (h : List (Rec K)) (b : List (Rec K)) : Prop where
  reach : Reach db h
  fit : db.Fits b.length
  bne : b ≠ []
  bound : ∀ r ∈ b, r.seq ≤ NIL
  opn : db.check .write = .ok

/-- The newest number after the batch. -/
def DB.newMax (db : DB K S) (b : List (Rec K)) : Nat := ((db.setRecordBatch b).2.getMaxSeqNum).getD 0

theorem SameReads.rfl' (d : DB K S) : SameReads d d := ⟨fun _ => ⟨rfl, rfl⟩, fun _ => rfl, rfl⟩

theorem GPre.check {db : DB K S} {h b} (hp : GPre db h b) :
    (({ db.log with barrier := db.log.getMaxSeqNum.getD 0 } : LogMgr K).checkBatchValidity b = .ok ∧ db.ValidBatch b) ∨
    (({ db.log with barrier := db.log.getMaxSeqNum.getD 0 } : LogMgr K).checkBatchValidity b = .invalidSeqnum ∧
      ¬ db.ValidBatch b) := by
  obtain ⟨A, B, rfl, hi⟩ := hp.reach.inv
  have hroom : db.log.nextSeq + b.length ≤ NIL := by
    rw [hi.log.nextSeq_eq]; have := hp.fit.1; unfold DB.getMaxSeqNum at this; omega
  have hv := hi.validBatch_iff b hp.fit
  rcases hi.log.checkBatch b hp.bne hp.bound hroom with ⟨h1, h2⟩ | ⟨h1, h2⟩
  · exact Or.inl ⟨h1, hv.2 ⟨hp.bne, h2⟩⟩
  · exact Or.inr ⟨h1, fun h3 => h2 (hv.1 h3).2⟩

theorem GPre.ne_iff {db : DB K S} {h b} (hp : GPre db h b) : db.getMaxSeqNum ≠ none ↔ h ≠ [] := by
  have := (C04_numbers_increase hp.reach).2.2
  rw [this]
  cases h with
  | nil => simp
  | cons a t => simp

theorem GPre.running {db : DB K S} {h b} (hp : GPre db h b) (hm : db.getMaxSeqNum ≠ none) (hv : db.ValidBatch b) (j : Nat) :
    SameReads (db.duringBatch b j) db :=
  C12_batch_invisible_while_running_partial hp.reach (hp.ne_iff.1 hm) hp.fit hv j

theorem GPre.begin_reads {db : DB K S} {h b} (hp : GPre db h b) : SameReads (db.duringBatch b 0) db := by
  by_cases hm : db.getMaxSeqNum = none
  · have : db.duringBatch b 0 = db := by
      obtain ⟨A, B, -, hi⟩ := hp.reach.inv
      have hb := hi.log.bar
      have hm' : db.log.getMaxSeqNum = none := hm
      unfold DB.duringBatch
      rw [hm']
      show ({ db with log := { db.log with barrier := 0 } } : DB K S) = db
      rw [← hb]
    rw [this]; exact SameReads.rfl' _
  · have hne := hp.ne_iff.1 hm
    obtain ⟨x, hx⟩ := List.exists_mem_of_ne_nil _ hne
    have hfit : db.Fits [({ x with seq := NIL } : Rec K)].length := by
      have := hp.fit
      refine ⟨?_, this.2⟩
      have h1 := this.1
      have : 0 < b.length := List.length_pos_iff.2 hp.bne
      simp only [List.length_singleton]; omega
    have := C12_batch_invisible_while_running_partial hp.reach hne (b := [{ x with seq := NIL }]) hfit
      ⟨by simp, Or.inl (by simp)⟩ 0
    exact this

/-- The log after the batch. -/
theorem GPre.filled {db : DB K S} {h b} (hp : GPre db h b) (hv : db.ValidBatch b) :
    ∃ A B l', h = A ++ B ∧ DBInv db A B ∧ LogInv l' A (B ++ number (db.log.getMaxSeqNum.getD 0) b) ∧
      l'.cfg = db.log.cfg ∧
      db.filled b = { db with log := { l' with barrier := db.log.getMaxSeqNum.getD 0 } } ∧
      db.setRecordBatch b = (.ok, { db with log := l' }) ∧
      l'.getMaxSeqNum = some (db.newMax b) ∧ 0 < db.newMax b ∧ db.newMax b < NIL ∧
      (∀ r ∈ A ++ (B ++ number (db.log.getMaxSeqNum.getD 0) b), r.seq ≤ db.newMax b) ∧
      l'.newestMax = db.newMax b := by
  obtain ⟨A, B, rfl, hi⟩ := hp.reach.inv
  have hb := ((hi.validBatch_iff b hp.fit).1 hv).2
  obtain ⟨l', hl, ho⟩ := hi.log.setMultiInternal b hb
  have hroom : db.log.nextSeq + b.length ≤ NIL := by
    rw [hi.log.nextSeq_eq]; have := hp.fit.1; unfold DB.getMaxSeqNum at this; omega
  have hset : db.setRecordBatch b = (.ok, { db with log := l' }) := by
    unfold DB.setRecordBatch
    rw [hp.opn]
    simp only [ne_eq, not_true_eq_false, if_false]
    have : db.log.setMulti b = (.ok, l') := by
      unfold LogMgr.setMulti
      rw [if_neg (by simp [hi.log.rw]), if_neg hp.bne, if_neg (Nat.ne_of_lt hi.log.numN)]
      simp only []
      rcases hp.check with ⟨h1, -⟩ | ⟨-, h1⟩
      · rw [h1]
        simp only [setMultiInternal_barrier, hl]
        have := ho.inv.bar
        rw [← this]
      · exact absurd hv h1
    rw [this]
  obtain ⟨N, hN⟩ : ∃ N, number (db.log.getMaxSeqNum.getD 0) b = N := ⟨_, rfl⟩
  have hNne : N ≠ [] := by rw [← hN]; exact number_ne_nil _ hp.bne
  obtain ⟨L, x, hx⟩ : ∃ L x, N = L ++ [x] := ⟨_, _, (List.dropLast_concat_getLast hNne).symm⟩
  have hmax : l'.getMaxSeqNum = some x.seq := by
    rw [ho.max hp.bne, hN, hx]; simp
  have hnm : db.newMax b = x.seq := by
    unfold DB.newMax
    rw [hset]
    show l'.getMaxSeqNum.getD 0 = _
    rw [hmax]; rfl
  obtain ⟨fs, f, hf⟩ := ho.inv.split_last
  have hge := ho.inv.getMax_eq hf
  have hfn : f.mem.maxSeqNum ≠ NIL := by
    intro e; rw [if_neg (by simp [e]), hmax] at hge; cases hge
  rw [if_pos hfn, hmax] at hge
  have hfx : x.seq = f.mem.maxSeqNum := Option.some.inj hge
  have hfi : l'.file? l'.maxNum = some f := by
    rw [← ho.inv.last_num hf]; exact ho.inv.file?_mem (by rw [hf]; simp)
  have hlt : x.seq < NIL := ho.lt x (by rw [hN, hx]; simp)
  have hpos : 0 < x.seq := by
    have := (List.pairwise_cons.1 ho.inc).1 x.seq (by rw [hN, hx]; simp)
    omega
  have htop := (ho.inv.top fs f hf).2 hfn
  refine ⟨A, B, l', rfl, hi, ho.inv, ho.cfg, ?_, hset, by rw [hmax, hnm], by omega, by omega, ?_, ?_⟩
  · unfold DB.filled DB.duringBatch
    rw [List.take_length, setMultiInternal_barrier, hl]
  · intro r hr
    rw [hnm, hfx]
    exact htop r hr
  · unfold LogMgr.newestMax; rw [hfi]; simp only []; omega

/-- Reads through the forward barrier are those after the batch. -/
theorem GPre.fwd_reads {db : DB K S} {h b} (hp : GPre db h b) (hv : db.ValidBatch b) :
    SameReads ({ (db.setRecordBatch b).2 with log := { (db.setRecordBatch b).2.log with barrier := db.newMax b } } : DB K S)
      (db.setRecordBatch b).2 ∧ (db.setRecordBatch b).2.log.barrier = 0 ∧
    (db.filled b).log = { (db.setRecordBatch b).2.log with barrier := (db.filled b).log.barrier } ∧
    (db.filled b) = { (db.setRecordBatch b).2 with log := (db.filled b).log } := by
  obtain ⟨A, B, l', rfl, hi, hl, hcfg, hfill, hset, hmax, hpos, hlt, hle, -⟩ := hp.filled hv
  rw [hset, hfill]
  refine ⟨?_, hl.bar, rfl, rfl⟩
  show SameReads ({ db with log := { l' with barrier := db.newMax b } } : DB K S) { db with log := l' }
  generalize db.newMax b = m at *
  have hmode : l'.cfg.logSectionOnly = false := by rw [hcfg]; exact hi.mode
  have hget : ∀ k, ({ l' with barrier := m } : LogMgr K).get k = l'.get k := by
    intro k
    rw [hl.get_barrier m (by omega) hlt hmode, hl.get_eq, upto_eq_self (fun r hr => hle r (List.mem_append_right _ hr))]
    cases lastWrite (B ++ number (db.log.getMaxSeqNum.getD 0) b) k <;> rfl
  have hrec : ∀ k, ({ db with log := { l' with barrier := m } } : DB K S).getRecordByKey k =
      ({ db with log := l' } : DB K S).getRecordByKey k := by
    intro k
    unfold DB.getRecordByKey DB.tableGet
    simp only [hget]
    rfl
  refine ⟨fun k => ⟨by rw [DB.get_of_record, DB.get_of_record, hrec], hrec k⟩, fun q => ?_, ?_⟩
  · unfold DB.getRecord
    show (if db.check .read ≠ .ok then _ else _ : Status × Option (Rec K)).2 = (if db.check .read ≠ .ok then _ else _ : Status × Option (Rec K)).2
    by_cases hck : db.check .read = .ok
    · simp only [hck, ne_eq, not_true_eq_false, if_false]
      have hbar := hl.getSN_barrier m (by omega) q
      by_cases hq : q ≤ m
      · rw [hbar.1 hq]
      · have h1 := (hbar.2 (by omega)).1
        have h2 : (l'.getSN q).2 = none := by
          cases hg : l'.getSN q with
          | mk s2 o2 =>
            cases o2 with
            | none => rfl
            | some r =>
              obtain ⟨-, hrB, hrn⟩ := hl.getSN_sound hg
              have := hle r (List.mem_append_right _ hrB)
              omega
        revert h1 h2
        generalize ({ l' with barrier := m } : LogMgr K).getSN q = p1
        generalize l'.getSN q = p2
        obtain ⟨s1, o1⟩ := p1
        obtain ⟨s2, o2⟩ := p2
        intro h1 h2
        simp only at h1 h2
        subst h1; subst h2
        cases s1 <;> cases s2 <;> rfl
    · simp only [ne_eq, hck, not_false_eq_true, if_true]
  · show ({ l' with barrier := m } : LogMgr K).getMaxSeqNum = l'.getMaxSeqNum
    rw [hmax]
    unfold LogMgr.getMaxSeqNum
    rw [if_pos (by show m ≠ 0; omega)]

theorem GDb.view_same (g : GDb K S) (v : Bool) (h : g.barrier v = g.db.log.barrier) : g.view v = g.db := by
  unfold GDb.view
  rw [h]

/-- What a reader sees at any moment. -/
theorem GOk.reads {db : DB K S} {h b} (hp : GPre db h b) {v : Bool} {g : GDb K S} (hg : GOk db b (db.newMax b) v g) :
    SameReads (g.view v) (if v then (db.setRecordBatch b).2 else db) := by
  cases v with
  | false =>
    rw [GDb.view_same g false (by unfold GDb.barrier; rw [if_neg (by simp)])]
    simp only [Bool.false_eq_true, if_false]
    rcases hg with hg | hg | ⟨hv, hm, j, hg⟩
    · rw [hg]; exact SameReads.rfl' _
    · rw [hg]; exact hp.begin_reads
    · rw [hg]; exact hp.running hm hv j
  | true =>
    simp only [if_true]
    obtain ⟨hv, hg⟩ := hg
    obtain ⟨_, _, _, _, _, _, _, _, _, _, hpos, _⟩ := hp.filled hv
    obtain ⟨h1, h2, h3, h4⟩ := hp.fwd_reads hv
    rcases hg with ⟨g1, g2, g3⟩ | ⟨g1, g2⟩
    · have hb : g.barrier true = db.newMax b := by
        unfold GDb.barrier; rw [if_pos ⟨by omega, g3, rfl⟩, g2]
      have : g.view true =
          { (db.setRecordBatch b).2 with log := { (db.setRecordBatch b).2.log with barrier := db.newMax b } } := by
        unfold GDb.view
        rw [hb, g1, h4, h3]
      rw [this]; exact h1
    · by_cases ha : g.attached = true
      · have hb : g.barrier true = db.newMax b := by
          unfold GDb.barrier; rw [if_pos ⟨by rw [g2 ha]; omega, ha, rfl⟩, g2 ha]
        have : g.view true =
            { (db.setRecordBatch b).2 with log := { (db.setRecordBatch b).2.log with barrier := db.newMax b } } := by
          unfold GDb.view
          rw [hb, g1]
        rw [this]; exact h1
      · rw [GDb.view_same g true (by unfold GDb.barrier; rw [if_neg (by simp [ha])]), g1]
        exact SameReads.rfl' _

/-! ### All DBs -/

namespace GRun

/-- What holds of all DBs at every moment. -/
def POk (n : Nat) (dbs : Nat → DB K S) (b : Nat → List (Rec K)) (s : GRun K S) : Prop :=
  ∀ i, i < n → GOk (dbs i) (b i) ((dbs i).newMax (b i)) s.visible (s.dbs i)

theorem POk.upd {n} {dbs : Nat → DB K S} {b} {s : GRun K S} (h : POk n dbs b s) {i : Nat} {g : GDb K S} {c}
    (hg : GOk (dbs i) (b i) ((dbs i).newMax (b i)) s.visible g) : POk n dbs b (s.upd i g c) := by
  intro j hj
  show GOk _ _ _ s.visible (if j = i then g else s.dbs j)
  by_cases e : j = i
  · rw [if_pos e, e]; exact hg
  · rw [if_neg e]; exact h j hj

variable {n : Nat} {dbs : Nat → DB K S} {h b : Nat → List (Rec K)}

theorem POk.code {s : GRun K S} (hp : POk n dbs b s) (c : List (GInstr K)) : POk n dbs b { s with code := c } := hp

theorem upd_self (s : GRun K S) (i : Nat) (c : List (GInstr K)) : s.upd i (s.dbs i) c = { s with code := c } := by
  have : (fun j => if j = i then s.dbs i else s.dbs j) = s.dbs := by
    funext j; by_cases e : j = i
    · rw [if_pos e, e]
    · rw [if_neg e]
  unfold GRun.upd
  rw [this]

theorem upd_upd (s : GRun K S) (i : Nat) (g g' : GDb K S) (c c') : (s.upd i g c).upd i g' c' = s.upd i g' c' := by
  unfold GRun.upd
  congr 1
  funext j
  by_cases e : j = i
  · rw [if_pos e, if_pos e]
  · rw [if_neg e, if_neg e]; simp only [if_neg e]

theorem upd_dbs (s : GRun K S) (i : Nat) (g : GDb K S) (c) : (s.upd i g c).dbs i = g := if_pos rfl

theorem step_setFwd (s : GRun K S) {i : Nat} {c} (hc : s.code = .setFwd i :: c) :
    step n s = s.upd i { s.dbs i with fwd := (s.dbs i).db.log.newestMax } c := by
  unfold step; rw [hc]

theorem step_detach (s : GRun K S) {i : Nat} {c} (hc : s.code = .detach i :: c) :
    step n s = s.upd i { s.dbs i with attached := false } c := by
  unfold step; rw [hc]

theorem step_clearFwd (s : GRun K S) {i : Nat} {c} (hc : s.code = .clearFwd i :: c) :
    step n s = s.upd i { s.dbs i with fwd := 0 } c := by
  unfold step; rw [hc]

/-- The barrier phase. -/
theorem phase_barrier (s : GRun K S) (rest)
    (hc : s.code = (List.range n).flatMap (fun i => [.setBarrier i]) ++ rest) (hv : s.visible = false) (hst : s.status = .ok)
    (hd : ∀ i, i < n → s.dbs i = { db := dbs i }) (hP : POk n dbs b s) :
    ∃ s' : GRun K S, Runs n (POk n dbs b) s s' ∧ s'.code = rest ∧ s'.visible = false ∧ s'.status = .ok ∧
      ∀ i, i < n → s'.dbs i = { db := (dbs i).duringBatch (b i) 0 } := by
  obtain ⟨s', r1, r2, r3, r4, r5, -⟩ := phase (n := n) (P := POk n dbs b) (List.range n) List.nodup_range
    (fun i => [.setBarrier i]) (fun i g => g = { db := dbs i }) (fun i g => g = { db := (dbs i).duringBatch (b i) 0 }) false .ok
    (by
      intro i hi s rest h1 h2 h3 h4 h5
      refine ⟨_, rfl, Runs.step h5 ?_ (h5.upd (by rw [h2]; exact Or.inr (Or.inl rfl)))⟩
      unfold step
      rw [h1]
      simp only [List.cons_append, List.nil_append, h4]
      rfl)
    s rest hc hv hst (fun i hi => hd i (List.mem_range.1 hi)) hP
  exact ⟨s', r1, r2, r3, r4, fun i hi => r5 i (List.mem_range.2 hi)⟩

/-- The checks: all pass, or one of them starts the clean-up. -/
theorem phase_check (hp : ∀ i, i < n → GPre (dbs i) (h i) (b i)) (is : List Nat) (his : ∀ i ∈ is, i < n)
    (s : GRun K S) (rest)
    (hc : s.code = is.flatMap (fun i => [.check i (b i)]) ++ rest)
    (hd : ∀ i, i < n → s.dbs i = { db := (dbs i).duringBatch (b i) 0 }) (hP : POk n dbs b s) :
    ((∀ i ∈ is, (dbs i).ValidBatch (b i)) ∧ Runs n (POk n dbs b) s { s with code := rest }) ∨
    ((∃ i ∈ is, ¬ (dbs i).ValidBatch (b i)) ∧
      Runs n (POk n dbs b) s { s with status := .invalidSeqnum, code := cleanup n }) := by
  induction is generalizing s with
  | nil =>
    left
    refine ⟨fun i hi => (by cases hi), ?_⟩
    have : ({ s with code := rest } : GRun K S) = s := by
      have : s.code = rest := by simpa using hc
      rw [← this]
    rw [this]; exact Runs.refl hP
  | cons i is ih =>
    have hi := his i List.mem_cons_self
    have hbne := (hp i hi).bne
    have hlog : (s.dbs i).db.log = { (dbs i).log with barrier := (dbs i).log.getMaxSeqNum.getD 0 } := by
      rw [hd i hi]
      rfl
    rcases (hp i hi).check with ⟨h1, h2⟩ | ⟨h1, h2⟩
    · have hstep : step n s = { s with code := is.flatMap (fun i => [.check i (b i)]) ++ rest } := by
        unfold step
        rw [hc]
        simp only [List.flatMap_cons, List.cons_append, List.nil_append]
        rw [if_neg hbne, hlog, h1]
      have hr : Runs n (POk n dbs b) s { s with code := is.flatMap (fun i => [.check i (b i)]) ++ rest } :=
        Runs.step hP hstep (hP.code _)
      rcases ih (fun j hj => his j (List.mem_cons_of_mem _ hj)) { s with code := is.flatMap (fun i => [.check i (b i)]) ++ rest }
        rfl hd (hP.code _) with ⟨h3, h4⟩ | ⟨⟨j, h3, h5⟩, h4⟩
      · refine Or.inl ⟨fun j hj => ?_, hr.trans h4⟩
        rcases List.mem_cons.1 hj with rfl | hj
        · exact h2
        · exact h3 j hj
      · exact Or.inr ⟨⟨j, List.mem_cons_of_mem _ h3, h5⟩, hr.trans h4⟩
    · right
      refine ⟨⟨i, List.mem_cons_self, h2⟩, Runs.step hP ?_ hP⟩
      unfold step
      rw [hc]
      simp only [List.flatMap_cons, List.cons_append, List.nil_append]
      rw [if_neg hbne, hlog, h1]

/-- One record of one DB. -/
theorem put_one {db : DB K S} {h b : List (Rec K)} (hp : GPre db h b) (hv : db.ValidBatch b) {j : Nat} {r : Rec K} {rs}
    (hd : b.drop j = r :: rs) :
    (db.duringBatch b j).log.setMultiInternal [r] = (.ok, (db.duringBatch b (j + 1)).log) ∧
    ({ db.duringBatch b j with log := (db.duringBatch b (j + 1)).log } : DB K S) = db.duringBatch b (j + 1) := by
  refine ⟨?_, rfl⟩
  obtain ⟨A, B, rfl, hi⟩ := hp.reach.inv
  have hb := ((hi.validBatch_iff b hp.fit).1 hv).2
  have hpre : ∀ j, db.log.batchOk (b.take j) := by
    intro j
    rcases hb with ⟨h1, h2⟩ | ⟨h1, h2⟩
    · refine Or.inl ⟨fun r hr => h1 r (List.mem_of_mem_take hr), ?_⟩
      have : (b.take j).length ≤ b.length := by rw [List.length_take]; omega
      omega
    · refine Or.inr ⟨?_, fun r hr => h2 r (List.mem_of_mem_take hr)⟩
      refine List.Pairwise.sublist ?_ h1
      exact List.Sublist.cons_cons _ ((List.take_sublist j b).map _)
  obtain ⟨l1, h1, -⟩ := hi.log.setMultiInternal _ (hpre j)
  obtain ⟨l2, h2, -⟩ := hi.log.setMultiInternal _ (hpre (j + 1))
  have ht : b.take (j + 1) = b.take j ++ [r] := by
    have hlt : j < b.length := by
      rcases Nat.lt_or_ge j b.length with h | h
      · exact h
      · rw [List.drop_eq_nil_of_le h] at hd; cases hd
    rw [List.take_add_one, List.getElem?_eq_getElem hlt]
    have : b[j] = r := by
      have := List.drop_eq_getElem_cons hlt
      rw [hd] at this
      exact (List.cons.inj this).1.symm
    rw [this]; rfl
  have h3 := setMultiInternal_append db.log (b.take j) [r] h1
  rw [← ht, h2] at h3
  unfold DB.duringBatch
  simp only [setMultiInternal_barrier, h1, h2, ← h3]

/-- All records of one DB. -/
theorem puts_db (hp : ∀ i, i < n → GPre (dbs i) (h i) (b i)) {i : Nat} (hi : i < n) (hne : h i ≠ []) (hv : (dbs i).ValidBatch (b i))
    (todo : List (Rec K)) : ∀ (j : Nat) (s : GRun K S) rest, (b i).drop j = todo → j ≤ (b i).length →
      s.code = .puts i todo :: rest → s.visible = false →
      s.dbs i = { db := (dbs i).duringBatch (b i) j } → POk n dbs b s →
      Runs n (POk n dbs b) s (s.upd i { db := (dbs i).filled (b i), fwd := (dbs i).newMax (b i), attached := true } rest) := by
  induction todo with
  | nil =>
    intro j s rest hd hj hc hvis hs hP
    have hjl : j = (b i).length := by
      have := congrArg List.length hd
      rw [List.length_drop] at this
      simp only [List.length_nil] at this
      omega
    subst hjl
    have e1 : step n s = { s with code := .attach i :: .setFwd i :: rest } := by
      unfold step; rw [hc]
    have hf : ∀ (a : Bool) (m : Nat), GOk (dbs i) (b i) ((dbs i).newMax (b i)) s.visible
        { db := (dbs i).filled (b i), fwd := m, attached := a } := by
      intro a m; rw [hvis]; exact Or.inr (Or.inr ⟨hv, (hp i hi).ne_iff.2 hne, _, rfl⟩)
    have e2 : step n ({ s with code := .attach i :: .setFwd i :: rest } : GRun K S) =
        s.upd i { db := (dbs i).filled (b i), attached := true } (.setFwd i :: rest) := by
      unfold step
      simp only []
      rw [hs]
      rfl
    have e3 : step n (s.upd i { db := (dbs i).filled (b i), attached := true } (.setFwd i :: rest)) =
        s.upd i { db := (dbs i).filled (b i), fwd := (dbs i).newMax (b i), attached := true } rest := by
      rw [step_setFwd _ rfl, upd_upd, upd_dbs]
      simp only []
      obtain ⟨A, B, l', -, -, -, -, hfill, -, -, -, -, -, hfm⟩ := (hp i hi).filled hv
      rw [← hfm, hfill]
      rfl
    exact ((Runs.step hP e1 (hP.code _)).trans (Runs.step (hP.code _) e2 (hP.upd (hf _ _)))).trans
      (Runs.step (hP.upd (hf _ _)) e3 (hP.upd (hf _ _)))
  | cons r rs ih =>
    intro j s rest hd hj hc hvis hs hP
    obtain ⟨h1, h2⟩ := put_one (hp i hi) hv hd
    have hjl : j < (b i).length := by
      rcases Nat.lt_or_ge j (b i).length with h | h
      · exact h
      · rw [List.drop_eq_nil_of_le h] at hd; cases hd
    have e1 : step n s = s.upd i { db := (dbs i).duringBatch (b i) (j + 1) } (.puts i rs :: rest) := by
      unfold step
      rw [hc]
      simp only []
      rw [hs]
      simp only [h1, h2]
    have hok : POk n dbs b (s.upd i { db := (dbs i).duringBatch (b i) (j + 1) } (.puts i rs :: rest)) :=
      hP.upd (by rw [hvis]; exact Or.inr (Or.inr ⟨hv, (hp i hi).ne_iff.2 hne, _, rfl⟩))
    have hd' : (b i).drop (j + 1) = rs := by
      rw [List.drop_eq_getElem_cons hjl] at hd
      exact (List.cons.inj hd).2
    have := ih (j + 1) (s.upd i { db := (dbs i).duringBatch (b i) (j + 1) } (.puts i rs :: rest)) rest hd' hjl
      rfl hvis (upd_dbs _ _ _ _) hok
    rw [upd_upd] at this
    exact (Runs.step hP e1 hok).trans this

theorem phase_puts (hp : ∀ i, i < n → GPre (dbs i) (h i) (b i)) (hne : ∀ i, i < n → h i ≠ []) (hv : ∀ i, i < n → (dbs i).ValidBatch (b i))
    (s : GRun K S) (rest)
    (hc : s.code = (List.range n).flatMap (fun i => [.puts i (b i)]) ++ rest) (hvis : s.visible = false) (hst : s.status = .ok)
    (hd : ∀ i, i < n → s.dbs i = { db := (dbs i).duringBatch (b i) 0 }) (hP : POk n dbs b s) :
    ∃ s' : GRun K S, Runs n (POk n dbs b) s s' ∧ s'.code = rest ∧ s'.visible = false ∧ s'.status = .ok ∧
      ∀ i, i < n → s'.dbs i = { db := (dbs i).filled (b i), fwd := (dbs i).newMax (b i), attached := true } := by
  obtain ⟨s', r1, r2, r3, r4, r5, -⟩ := phase (n := n) (P := POk n dbs b) (List.range n) List.nodup_range
    (fun i => [.puts i (b i)]) (fun i g => g = { db := (dbs i).duringBatch (b i) 0 })
    (fun i g => g = { db := (dbs i).filled (b i), fwd := (dbs i).newMax (b i), attached := true }) false .ok
    (by
      intro i hi s rest h1 h2 h3 h4 h5
      have hin := List.mem_range.1 hi
      exact ⟨_, rfl, puts_db hp hin (hne i hin) (hv i hin) (b i) 0 s rest rfl (Nat.zero_le _) h1 h2 h4 h5⟩)
    s rest hc hvis hst (fun i hi => hd i (List.mem_range.1 hi)) hP
  exact ⟨s', r1, r2, r3, r4, fun i hi => r5 i (List.mem_range.2 hi)⟩

/-- The clean-up of one DB. -/
theorem clean_db (s : GRun K S) (i : Nat) (rest) (hc : s.code = [.clear i, .detach i, .clearFwd i] ++ rest)
    (d : DB K S) (hd : ({ (s.dbs i).db with log := { (s.dbs i).db.log with barrier := 0 } } : DB K S) = d)
    (hg : ∀ (a : Bool) (m : Nat), (a = true → m = (s.dbs i).fwd) →
      GOk (dbs i) (b i) ((dbs i).newMax (b i)) s.visible { db := d, fwd := m, attached := a }) (hP : POk n dbs b s) :
    Runs n (POk n dbs b) s (s.upd i { db := d } rest) := by
  have e1 : step n s = s.upd i { db := d, fwd := (s.dbs i).fwd, attached := (s.dbs i).attached } (.detach i :: .clearFwd i :: rest) := by
    unfold step; rw [hc]; simp only [List.cons_append, List.nil_append, hd]
  have e2 : step n (s.upd i { db := d, fwd := (s.dbs i).fwd, attached := (s.dbs i).attached } (.detach i :: .clearFwd i :: rest)) =
      s.upd i { db := d, fwd := (s.dbs i).fwd, attached := false } (.clearFwd i :: rest) := by
    rw [step_detach _ rfl, upd_upd, upd_dbs]
  have e3 : step n (s.upd i { db := d, fwd := (s.dbs i).fwd, attached := false } (.clearFwd i :: rest)) =
      s.upd i { db := d } rest := by
    rw [step_clearFwd _ rfl, upd_upd, upd_dbs]
  have p1 := hP.upd (c := .detach i :: .clearFwd i :: rest) (hg (s.dbs i).attached (s.dbs i).fwd (fun _ => rfl))
  have p2 := hP.upd (c := .clearFwd i :: rest) (hg false (s.dbs i).fwd (fun _ => rfl))
  have p3 := hP.upd (c := rest) (hg false 0 (by intro h; cases h))
  exact ((Runs.step hP e1 p1).trans (Runs.step p1 e2 p2)).trans (Runs.step p2 e3 p3)

/-- The whole batch: every DB takes part with a valid batch. -/
theorem run_valid (hp : ∀ i, i < n → GPre (dbs i) (h i) (b i)) (hne : ∀ i, i < n → h i ≠ []) (hv : ∀ i, i < n → (dbs i).ValidBatch (b i)) :
    ∃ s' : GRun K S, Runs n (POk n dbs b) (start n dbs b) s' ∧ s'.code = [] ∧ s'.visible = true ∧ s'.status = .ok ∧
      ∀ i, i < n → s'.dbs i = { db := ((dbs i).setRecordBatch (b i)).2 } := by
  have hP0 : POk n dbs b (start n dbs b) := fun i _ => Or.inl rfl
  obtain ⟨s1, r1, c1, v1, t1, d1⟩ := phase_barrier (n := n) (dbs := dbs) (b := b) (start n dbs b) _ rfl rfl rfl (fun _ _ => rfl) hP0
  have hP1 : POk n dbs b s1 := by obtain ⟨t, ht, hq⟩ := r1; have := hq t (Nat.le_refl _); rwa [ht] at this
  rcases phase_check hp (List.range n) (fun i hi => List.mem_range.1 hi) s1 _ c1 d1 hP1 with ⟨-, r2⟩ | ⟨⟨i, hi, hno⟩, -⟩
  · obtain ⟨s3, r3, c3, v3, t3, d3⟩ := phase_puts hp hne hv
      ({ s1 with code := (List.range n).flatMap (fun i => [.puts i (b i)]) ++ (.publish :: cleanup n) } : GRun K S) _ rfl v1 t1 d1 (hP1.code _)
    have hP3 : POk n dbs b s3 := by obtain ⟨t, ht, hq⟩ := r3; have := hq t (Nat.le_refl _); rwa [ht] at this
    let s4 : GRun K S := { s3 with visible := true, code := cleanup n }
    have hP4 : POk n dbs b s4 := fun i hi => by
      show GOk _ _ _ true (s3.dbs i)
      rw [d3 i hi]
      exact ⟨hv i hi, Or.inl ⟨rfl, rfl, rfl⟩⟩
    have r4 : Runs n (POk n dbs b) s3 s4 := Runs.step hP3 (by unfold step; rw [c3]) hP4
    obtain ⟨s5, r5, c5, v5, t5, d5, -⟩ := phase (n := n) (P := POk n dbs b) (List.range n) List.nodup_range
      (fun i => [.clear i, .detach i, .clearFwd i])
      (fun i g => g = { db := (dbs i).filled (b i), fwd := (dbs i).newMax (b i), attached := true })
      (fun i g => g = { db := ((dbs i).setRecordBatch (b i)).2 }) true .ok
      (by
        intro i hi s rest h1 h2 h3 h4 h5
        have hin := List.mem_range.1 hi
        refine ⟨_, rfl, clean_db s i rest h1 _ ?_ ?_ h5⟩
        · rw [h4]
          obtain ⟨-, q2, q3, q4⟩ := (hp i hin).fwd_reads (hv i hin)
          rw [q4, q3]
          simp only []
          generalize ((dbs i).setRecordBatch (b i)).2 = d at q2 ⊢
          rw [← q2]
        · intro a m ha
          rw [h2]
          refine ⟨hv i hin, Or.inr ⟨rfl, fun h => ?_⟩⟩
          rw [ha h, h4])
      s4 [] (by show cleanup n = _; simp [cleanup]) rfl t3 (fun i hi => d3 i (List.mem_range.1 hi)) hP4
    exact ⟨s5, ((r1.trans r2).trans r3).trans (r4.trans r5), c5, v5, t5, fun i hi => d5 i (List.mem_range.2 hi)⟩
  · exact absurd (hv i (List.mem_range.1 hi)) hno

/-- One of the batches is invalid. -/
theorem run_invalid (hp : ∀ i, i < n → GPre (dbs i) (h i) (b i)) (hv : ∃ i, i < n ∧ ¬ (dbs i).ValidBatch (b i)) :
    ∃ s' : GRun K S, Runs n (POk n dbs b) (start n dbs b) s' ∧ s'.code = [] ∧
      s'.visible = false ∧ s'.status = .invalidSeqnum ∧ ∀ i, i < n → s'.dbs i = { db := dbs i } := by
  have hP0 : POk n dbs b (start n dbs b) := fun i _ => Or.inl rfl
  obtain ⟨s1, r1, c1, v1, t1, d1⟩ := phase_barrier (n := n) (dbs := dbs) (b := b) (start n dbs b) _ rfl rfl rfl (fun _ _ => rfl) hP0
  have hP1 : POk n dbs b s1 := by obtain ⟨t, ht, hq⟩ := r1; have := hq t (Nat.le_refl _); rwa [ht] at this
  rcases phase_check hp (List.range n) (fun i hi => List.mem_range.1 hi) s1 _ c1 d1 hP1 with ⟨h1, -⟩ | ⟨-, r2⟩
  · obtain ⟨i, hi, hno⟩ := hv
    exact absurd (h1 i (List.mem_range.2 hi)) hno
  · obtain ⟨s5, r5, c5, v5, t5, d5, -⟩ := phase (n := n) (P := POk n dbs b) (List.range n) List.nodup_range
      (fun i => [.clear i, .detach i, .clearFwd i])
      (fun i g => g = { db := (dbs i).duringBatch (b i) 0 }) (fun i g => g = { db := dbs i }) false .invalidSeqnum
      (by
        intro i hi s rest h1 h2 h3 h4 h5
        have hin := List.mem_range.1 hi
        refine ⟨_, rfl, clean_db s i rest h1 _ ?_ ?_ h5⟩
        · rw [h4]
          obtain ⟨A, B, -, hi⟩ := (hp i hin).reach.inv
          have := hi.log.bar
          show ({ dbs i with log := { (dbs i).log with barrier := 0 } } : DB K S) = dbs i
          generalize dbs i = d at this
          rw [← this]
        · intro a m ha
          rw [h2]
          exact Or.inl rfl)
      { s1 with status := .invalidSeqnum, code := cleanup n } [] (by show cleanup n = _; simp [cleanup]) v1 rfl
      (fun i hi => d1 i (List.mem_range.1 hi)) hP1
    exact ⟨s5, (r1.trans r2).trans r5, c5, v5, t5, fun i hi => d5 i (List.mem_range.2 hi)⟩

end GRun
end Jungle
