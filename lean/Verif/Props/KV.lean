/-
  The key-value contract of a handle: C01, C02, C04, C05, C06, C13.
-/
import Mathlib.Order.Nat
import Verif.DB.ReachInv
import Verif.DB.Flat

set_option linter.unusedSectionVars false

namespace Jungle
open Spec
variable {K : Type} [LinearOrder K] {S : TableSys K}

theorem DBInv.answerRec {db : DB K S} {A B} (h : DBInv db A B) (hc : db.closing = false) (k : K) :
    db.getRecordByKey k = Spec.answerRec (A ++ B) k := by
  rw [h.get_eq (by simp [DB.check, hc])]
  unfold Spec.answerRec valueOf
  cases hl : lastWrite (A ++ B) k with
  | none => rfl
  | some r =>
    simp only [vis]
    by_cases hd : r.isDel = true
    · have : r.isIns = false := by
        unfold Rec.isDel at hd; unfold Rec.isIns
        cases ht : r.type <;> simp_all
      simp [hd, this]
    · simp [hd]

theorem DB.get_of_record (db : DB K S) (k : K) :
    db.get k = ((db.getRecordByKey k).1, (db.getRecordByKey k).2.map (·.val)) := by
  unfold DB.get DB.getRecordByKey
  by_cases hc : db.check .read = .ok
  · simp only [hc, ne_eq, not_true_eq_false, if_false]
    split
    · next r he => split <;> rfl
    · split
      · split <;> rfl
      · rfl
  · simp only [if_pos hc, Option.map_none]

theorem DBInv.answer {db : DB K S} {A B} (h : DBInv db A B) (hc : db.closing = false) (k : K) :
    db.get k = Spec.answer (A ++ B) k := by
  rw [DB.get_of_record, h.answerRec hc]
  unfold Spec.answerRec Spec.answer
  cases lastWrite (A ++ B) k with
  | none => rfl
  | some r => simp only []; split <;> rfl

/-- C01: after any sequence of calls, a read returns the value of the last accepted write of
    the key. -/
theorem C01_get_returns_latest_write {db : DB K S} {h : List (Rec K)} (hr : Reach db h)
    (hc : db.closing = false) (k : K) : db.get k = Spec.answer h k := by
  obtain ⟨A, B, rfl, hi⟩ := hr.inv
  exact hi.answer hc k

/-- C01 for `getRecordByKey`: the whole record, with the number it was accepted with. -/
theorem C01_getRecordByKey {db : DB K S} {h : List (Rec K)} (hr : Reach db h)
    (hc : db.closing = false) (k : K) : db.getRecordByKey k = Spec.answerRec h k := by
  obtain ⟨A, B, rfl, hi⟩ := hr.inv
  exact hi.answerRec hc k

/-- C01, progress: a write with a usable number is accepted, so the histories above are not
    restricted to lucky ones. -/
theorem C01_write_accepted {db : DB K S} {h : List (Rec K)} (hr : Reach db h) (r : Rec K) (se : Bool)
    (hfit : db.Fits 1) (hseq : db.FreshSeq r.seq) (h0 : r.seq ≠ 0)
    (hse : db.getMaxSeqNum = none → se = false)
    (hc : db.closing = false) (hrb : db.rollbackInProgress = false) :
    ∃ db', db.setRecord r se = (.ok, db') ∧ Reach db' (h ++ number (db.getMaxSeqNum.getD 0) [r]) := by
  obtain ⟨A, B, rfl, hi⟩ := hr.inv
  obtain ⟨db', hs, -⟩ := hi.set r se hfit hseq h0 hse (by simp [DB.check, hc, hrb])
  exact ⟨db', hs, Reach.set r se hr hfit hseq hse hs⟩

/-- C02: once a key is deleted, no read returns it until it is written again. -/
theorem C02_deleted_stays_deleted {db : DB K S} {h h' : List (Rec K)} {d : Rec K}
    (hr : Reach db (h ++ d :: h')) (hd : d.isDel = true)
    (hno : ∀ r ∈ h', r.key = d.key → r.isIns = false) :
    (db.get d.key).2 = none ∧ (db.getRecordByKey d.key).2 = none := by
  have key : ∀ x, lastWrite (h ++ d :: h') d.key = some x → x.isIns = false := by
    intro x hx
    have e : h ++ d :: h' = (h ++ [d]) ++ h' := by simp
    rw [e, lastWrite_append] at hx
    cases hl : lastWrite h' d.key with
    | some y =>
      rw [hl] at hx
      simp only [Option.some_or, Option.some.injEq] at hx
      subst hx
      unfold lastWrite at hl
      have hm := List.mem_of_getLast? hl
      simp only [List.mem_filter, Bool.and_eq_true, decide_eq_true_eq] at hm
      exact hno _ hm.1 hm.2.2
    | none =>
      rw [hl] at hx
      simp only [Option.none_or] at hx
      rw [lastWrite_snoc] at hx
      split at hx
      · cases hx
        exact Rec.not_ins_of_del hd
      · next hn =>
        exfalso; apply hn
        exact ⟨Rec.not_cmd_of_del hd, rfl⟩
  have h2 : (db.getRecordByKey d.key).2 = none := by
    by_cases hc : db.closing = false
    · rw [C01_getRecordByKey hr hc]
      unfold Spec.answerRec
      cases hl : lastWrite (h ++ d :: h') d.key with
      | none => rfl
      | some x => simp [key x hl]
    · unfold DB.getRecordByKey
      have : db.check .read ≠ .ok := by simp [DB.check, hc]
      rw [if_pos this]
  refine ⟨?_, h2⟩
  rw [DB.get_of_record, h2]; rfl

/-- A single accepted write, seen through `get`: the key has the written value (or none, after a
    deletion), every other key answers as before. -/
theorem write_effect {db db' : DB K S} {h : List (Rec K)} (hr : Reach db h) (r : Rec K) (se : Bool)
    (hc : r.isCmd = false) (hcl : db.closing = false)
    (hfit : db.Fits 1) (hseq : db.FreshSeq r.seq) (hse : db.getMaxSeqNum = none → se = false)
    (hs : db.setRecord r se = (.ok, db')) :
    db'.get r.key = (if r.isIns then (.ok, some r.val) else (.keyNotFound, none)) ∧
    ∀ k, k ≠ r.key → db'.get k = db.get k := by
  have hr' := Reach.set r se hr hfit hseq hse hs
  have hcl' : db'.closing = false := by
    have := congrArg (fun x => x.2.closing) hs
    unfold DB.setRecord at this; split at this <;> simpa [hcl] using this.symm
  rw [number_one] at hr'
  have e := fun k => C01_get_returns_latest_write hr' hcl' k
  generalize (if r.seq = NIL then db.getMaxSeqNum.getD 0 + 1 else r.seq) = s at e
  have hsc : (stamp r s).isCmd = false := hc
  constructor
  · rw [e, Spec.answer, lastWrite_snoc, if_pos ⟨hsc, rfl⟩]
    have h1 : (stamp r s).isIns = r.isIns := rfl
    simp only [h1]
    by_cases hi : r.isIns = true
    · have : (stamp r s).val = r.val := by
        have hd : r.isDel = false := by
          unfold Rec.isIns at hi; unfold Rec.isDel; cases ht : r.type <;> simp_all
        simp [stamp, hd]
      simp [hi, this]
    · simp [hi]
  · intro k hk
    rw [e, C01_get_returns_latest_write hr hcl, Spec.answer, Spec.answer, lastWrite_snoc, if_neg]
    rintro ⟨-, h⟩; exact hk h.symm

/-- C01 for `set`: the value is readable at once, other keys are unaffected. -/
theorem C01_set_then_get {db db' : DB K S} {h : List (Rec K)} (hr : Reach db h) {k : K} {v : Bytes}
    {se : Bool} (hcl : db.closing = false) (hfit : db.Fits 1)
    (hse : db.getMaxSeqNum = none → se = false) (hs : db.set k v se = (.ok, db')) :
    db'.get k = (.ok, some v) ∧ ∀ k', k' ≠ k → db'.get k' = db.get k' :=
  write_effect hr { seq := NIL, type := .insertion, key := k, val := v } se rfl hcl hfit
    (Or.inl rfl) hse hs

/-- C01 for `setSN` with a number above all earlier ones. -/
theorem C01_setSN_then_get {db db' : DB K S} {h : List (Rec K)} (hr : Reach db h) {n : Nat} {k : K}
    {v : Bytes} {se : Bool} (hcl : db.closing = false) (hfit : db.Fits 1) (hn : db.FreshSeq n)
    (hse : db.getMaxSeqNum = none → se = false) (hs : db.setSN n k v se = (.ok, db')) :
    db'.get k = (.ok, some v) ∧ ∀ k', k' ≠ k → db'.get k' = db.get k' :=
  write_effect hr { seq := n, type := .insertion, key := k, val := v } se rfl hcl hfit hn hse hs

/-- C01 for `setRecordByKey`: the number in the given record is ignored. -/
theorem C01_setRecordByKey_then_get {db db' : DB K S} {h : List (Rec K)} (hr : Reach db h)
    {r : Rec K} {se : Bool} (hi : r.isIns = true) (hcl : db.closing = false) (hfit : db.Fits 1)
    (hse : db.getMaxSeqNum = none → se = false) (hs : db.setRecordByKey r se = (.ok, db')) :
    db'.get r.key = (.ok, some r.val) ∧ ∀ k', k' ≠ r.key → db'.get k' = db.get k' := by
  have hc : r.isCmd = false := by
    unfold Rec.isIns at hi; unfold Rec.isCmd; cases ht : r.type <;> simp_all
  have := write_effect hr { r with seq := NIL } se hc hcl hfit (Or.inl rfl) hse hs
  rw [if_pos (show ({ r with seq := NIL } : Rec K).isIns = true from hi)] at this
  exact this

/-- C02 for `del`: the key is gone at once, other keys are unaffected. -/
theorem C02_del_then_get {db db' : DB K S} {h : List (Rec K)} (hr : Reach db h) {k : K} {se : Bool}
    (hcl : db.closing = false) (hfit : db.Fits 1)
    (hse : db.getMaxSeqNum = none → se = false) (hs : db.del k se = (.ok, db')) :
    db'.get k = (.keyNotFound, none) ∧ ∀ k', k' ≠ k → db'.get k' = db.get k' :=
  write_effect hr { seq := NIL, type := .deletion, key := k } se rfl hcl hfit (Or.inl rfl) hse hs

/-- C02 for `delSN` with a number above all earlier ones. -/
theorem C02_delSN_then_get {db db' : DB K S} {h : List (Rec K)} (hr : Reach db h) {n : Nat} {k : K}
    {se : Bool} (hcl : db.closing = false) (hfit : db.Fits 1) (hn : db.FreshSeq n)
    (hse : db.getMaxSeqNum = none → se = false) (hs : db.delSN n k se = (.ok, db')) :
    db'.get k = (.keyNotFound, none) ∧ ∀ k', k' ≠ k → db'.get k' = db.get k' :=
  write_effect hr { seq := n, type := .deletion, key := k } se rfl hcl hfit hn hse hs

/-- C02 for `delRecord`: whatever type and value the given record carries. -/
theorem C02_delRecord_then_get {db db' : DB K S} {h : List (Rec K)} (hr : Reach db h) {r : Rec K}
    {se : Bool} (hcl : db.closing = false) (hfit : db.Fits 1) (hn : db.FreshSeq r.seq)
    (hse : db.getMaxSeqNum = none → se = false) (hs : db.delRecord r se = (.ok, db')) :
    db'.get r.key = (.keyNotFound, none) ∧ ∀ k', k' ≠ r.key → db'.get k' = db.get k' :=
  write_effect hr { r with type := .deletion } se rfl hcl hfit hn hse hs

/-- C04: the numbers of the accepted records strictly increase along the history, so they are
    unique; they are proper numbers, and the maximum reported is the last one. -/
theorem C04_numbers_increase {db : DB K S} {h : List (Rec K)} (hr : Reach db h) :
    h.Pairwise (fun a b => a.seq < b.seq) ∧ (∀ r ∈ h, 0 < r.seq ∧ r.seq < NIL) ∧
    db.getMaxSeqNum = (h.getLast?).map (·.seq) := by
  obtain ⟨A, B, rfl, hi⟩ := hr.inv
  refine ⟨hi.log.inc, hi.pos, ?_⟩
  by_cases he : A ++ B = []
  · rw [he]; exact hi.max0 he
  · exact hi.maxS he

/-- C04: a record without a number gets a number above all earlier ones, at every rotation
    point; only records of one history entry are added. -/
theorem C04_automatic_number {db db' : DB K S} {h : List (Rec K)} (hr : Reach db h) {r : Rec K} {se : Bool}
    (hn : r.seq = NIL) (hfit : db.Fits 1) (hse : db.getMaxSeqNum = none → se = false)
    (hs : db.setRecord r se = (.ok, db')) :
    ∃ s, (∀ x ∈ h, x.seq < s) ∧ db'.getMaxSeqNum = some s ∧ Reach db' (h ++ [stamp r s]) := by
  have hr' := Reach.set r se hr hfit (Or.inl hn) hse hs
  rw [number_one, if_pos hn] at hr'
  refine ⟨_, ?_, ?_, hr'⟩
  · intro x hx
    exact (List.pairwise_append.1 (C04_numbers_increase hr').1).2.2 x hx _ (List.mem_singleton.2 rfl)
  · rw [(C04_numbers_increase hr').2.2]; simp [stamp]

/-- C06, partial: moving records from the log to the tables changes no answer, whatever options
    are given, and whether or not the flush succeeds.  Missing: the bounds that `DB.FlushSeq`
    excludes, for which the claim is false of the code (`C06_gap_violation`,
    `C06_unsynced_violation`). -/
theorem C06_flush_invisible_partial {db db' : DB K S} {h : List (Rec K)} (hr : Reach db h)
    {o : LogMgr.FlushOpts} {n : Nat} (hp : o.purgeOnly = false) (hn : db.FlushSeq o n) {st : Status}
    (hs : db.flushLogs o n = (st, db')) (k : K) :
    db'.get k = db.get k ∧ db'.getRecordByKey k = db.getRecordByKey k := by
  have hr' := Reach.flush o n hr hp hn hs
  have hcl : db'.closing = db.closing := by
    unfold DB.flushLogs at hs; split at hs <;> cases hs <;> rfl
  have key : db'.getRecordByKey k = db.getRecordByKey k := by
    by_cases hc : db.closing = false
    · rw [C01_getRecordByKey hr hc, C01_getRecordByKey hr' (hcl.trans hc)]
    · unfold DB.getRecordByKey
      have h1 : db.check .read ≠ .ok := by simp [DB.check, hc]
      have h2 : db'.check .read = db.check .read := by simp [DB.check, hcl]
      rw [h2, if_pos h1, if_pos h1]
  exact ⟨by rw [DB.get_of_record, DB.get_of_record, key], key⟩

/-- C06, partial (same bounds): a flush never reaches undefined behaviour on the numbers it may be called with. -/
theorem C06_flush_defined_partial {db db' : DB K S} {h : List (Rec K)} (hr : Reach db h)
    {o : LogMgr.FlushOpts} {n : Nat} (hp : o.purgeOnly = false) (hn : db.FlushSeq o n) {st : Status}
    (hs : db.flushLogs o n = (st, db')) : st ≠ .undefinedBehaviour := by
  obtain ⟨A, B, rfl, hi⟩ := hr.inv
  exact (hi.flush hp hn hs).1

/-- The batches `setRecordBatch` accepts: none of the records has a number, or all have numbers
    that increase and are above the newest one. -/
def DB.ValidBatch (db : DB K S) (b : List (Rec K)) : Prop :=
  b ≠ [] ∧ ((∀ r ∈ b, r.seq = NIL) ∨
    ((∀ r ∈ b, r.seq < NIL) ∧ b.Pairwise (fun x y => x.seq < y.seq) ∧
      ∀ r ∈ b, db.getMaxSeqNum.getD 0 < r.seq))

theorem DBInv.validBatch_iff {db : DB K S} {A B} (h : DBInv db A B) (b : List (Rec K))
    (hfit : db.Fits b.length) : db.ValidBatch b ↔ b ≠ [] ∧ db.log.batchOk b := by
  unfold DB.ValidBatch LogMgr.batchOk
  constructor
  · rintro ⟨h0, h1 | ⟨h1, h2, h3⟩⟩
    · refine ⟨h0, Or.inl ⟨h1, ?_⟩⟩
      rw [h.log.nextSeq_eq]; have := hfit.1; unfold DB.getMaxSeqNum at this; omega
    · refine ⟨h0, Or.inr ⟨List.pairwise_cons.2 ⟨?_, ?_⟩, h1⟩⟩
      · intro n hn; obtain ⟨r, hr, rfl⟩ := List.mem_map.1 hn; exact h3 r hr
      · rw [List.pairwise_map]; exact h2
  · rintro ⟨h0, ⟨h1, -⟩ | ⟨h1, h2⟩⟩
    · exact ⟨h0, Or.inl h1⟩
    · have h3 := List.pairwise_cons.1 h1
      refine ⟨h0, Or.inr ⟨h2, ?_, fun r hr => h3.1 _ (List.mem_map_of_mem hr)⟩⟩
      rw [← List.pairwise_map (f := fun r : Rec K => r.seq)]; exact h3.2

/-- C13: a batch is accepted exactly if it is valid; otherwise the call reports an error and
    the handle is unchanged (so nothing becomes visible and no number is consumed). -/
theorem C13_invalid_batch_no_effect {db : DB K S} {h : List (Rec K)} (hr : Reach db h)
    (b : List (Rec K)) (hfit : db.Fits b.length) (hN : ∀ r ∈ b, r.seq ≤ NIL)
    (hc : db.closing = false) (hrb : db.rollbackInProgress = false) :
    (db.ValidBatch b → (db.setRecordBatch b).1 = .ok) ∧
    (¬ db.ValidBatch b →
      db.setRecordBatch b = (if b = [] then .emptyBatch else .invalidSeqnum, db)) := by
  obtain ⟨A, B, rfl, hi⟩ := hr.inv
  have hv := hi.validBatch_iff b hfit
  rcases hi.batch b hfit hN (by simp [DB.check, hc, hrb]) with ⟨h1, h2, db', hs, -⟩ | ⟨h1, hs⟩
  · exact ⟨fun _ => by rw [hs], fun hn => absurd (hv.2 ⟨h1, h2⟩) hn⟩
  · refine ⟨fun hvb => ?_, fun _ => hs⟩
    have := hv.1 hvb
    rcases h1 with h1 | h1
    · exact absurd h1 this.1
    · exact absurd this.2 h1

/-! ### concrete executions that meet the hypotheses -/
namespace Example

/-- A handle with integer keys over the flat table section. -/
def d0 : DB Nat (Flat Nat) := DB.init _ { maxEntries := 2 }
def d1 := (d0.set 5 [1]).2
def d2 := (d1.set 6 [2]).2
def d3 := (d2.del 5).2
def d4 := d3.sync.2
def d5 := (d4.flushLogs {} 2).2
def d6 := (d5.setRecordBatch [{ seq := NIL, type := .insertion, key := 7, val := [3] },
                              { seq := NIL, type := .insertion, key := 8, val := [4] }]).2

def h6 : List (Rec Nat) :=
  [{ seq := 1, type := .insertion, key := 5, val := [1] },
   { seq := 2, type := .insertion, key := 6, val := [2] },
   { seq := 3, type := .deletion, key := 5 },
   { seq := 4, type := .insertion, key := 7, val := [3] },
   { seq := 5, type := .insertion, key := 8, val := [4] }]

theorem r0 : Reach d0 [] := Reach.init _ ⟨rfl, rfl, rfl, by decide⟩
theorem r1 : Reach d1 (h6.take 1) :=
  Reach.set (db' := d1) { seq := NIL, type := .insertion, key := 5, val := [1] } false r0
    (by unfold DB.Fits; decide) (Or.inl rfl) (fun _ => rfl) (by rfl)
theorem r2 : Reach d2 (h6.take 2) :=
  Reach.set (db' := d2) { seq := NIL, type := .insertion, key := 6, val := [2] } false r1
    (by unfold DB.Fits; decide) (Or.inl rfl) (fun _ => rfl) (by rfl)
/-- this write rotates to a second log file -/
theorem r3 : Reach d3 (h6.take 3) :=
  Reach.set (db' := d3) { seq := NIL, type := .deletion, key := 5 } false r2
    (by unfold DB.Fits; decide) (Or.inl rfl) (fun _ => rfl) (by rfl)
theorem r4 : Reach d4 (h6.take 3) := Reach.sync r3 (st := .ok) rfl
/-- a flush up to number 2: record 3 stays in the log, records 1 and 2 move to the table -/
theorem r5 : Reach d5 (h6.take 3) :=
  Reach.flush {} 2 r4 rfl (Or.inr (Or.inl ⟨{ seq := 2, type := .insertion, key := 6, val := [2] },
    by decide, Or.inr ⟨3, by decide, by decide⟩⟩)) (st := .ok) (by rfl)
theorem r6 : Reach d6 h6 :=
  Reach.batch (db' := d6) [{ seq := NIL, type := .insertion, key := 7, val := [3] },
    { seq := NIL, type := .insertion, key := 8, val := [4] }] r5
    (by unfold DB.Fits; decide) (by decide) (by rfl)

example : d3.log.files.length = 2 := by decide
example : d5.table = h6.take 2 := by rfl
example : d6.get 5 = (.keyNotFound, none) ∧ d6.get 6 = (.ok, some [2]) ∧ d6.get 8 = (.ok, some [4]) := by
  decide
/-- C01 on this execution -/
example (k : Nat) : d6.get k = Spec.answer h6 k := C01_get_returns_latest_write r6 rfl k
/-- C02 on this execution: 5 is deleted at position 3, its old value is in the table -/
example : (d6.get 5).2 = none :=
  (C02_deleted_stays_deleted (h := h6.take 2) (d := { seq := 3, type := .deletion, key := 5 })
    (h' := h6.drop 3) r6 rfl (by decide)).1
theorem f10 : d3.FreshSeq 10 :=
  Or.inr ⟨by decide, by
    intro m hm
    have h3 : d3.getMaxSeqNum = some 3 := by decide
    rw [h3] at hm; cases hm; decide⟩
/-- `set`, `setSN`, `del`, `delSN`, `delRecord` and `setRecordByKey` on a state of this execution -/
example : (d3.set 5 [9]).2.get 5 = (.ok, some [9]) ∧
    ∀ k, k ≠ 5 → (d3.set 5 [9]).2.get k = d3.get k :=
  C01_set_then_get r3 rfl (by unfold DB.Fits; decide) (fun _ => rfl) (by rfl)
example : (d3.setSN 10 5 [9]).2.get 5 = (.ok, some [9]) :=
  (C01_setSN_then_get r3 (n := 10) rfl (by unfold DB.Fits; decide) f10 (fun _ => rfl) (by rfl)).1
example : (d3.setRecordByKey { seq := 1, type := .insertion, key := 5, val := [9] }).2.get 5
    = (.ok, some [9]) :=
  (C01_setRecordByKey_then_get r3 (r := { seq := 1, type := .insertion, key := 5, val := [9] })
    rfl rfl (by unfold DB.Fits; decide) (fun _ => rfl) (by rfl)).1
example : (d3.del 6).2.get 6 = (.keyNotFound, none) :=
  (C02_del_then_get r3 rfl (by unfold DB.Fits; decide) (fun _ => rfl) (by rfl)).1
example : (d3.delSN 10 6).2.get 6 = (.keyNotFound, none) :=
  (C02_delSN_then_get r3 (n := 10) rfl (by unfold DB.Fits; decide) f10 (fun _ => rfl) (by rfl)).1
example : (d3.delRecord { seq := NIL, type := .insertion, key := 6, val := [7] }).2.get 6
    = (.keyNotFound, none) :=
  (C02_delRecord_then_get r3 (r := { seq := NIL, type := .insertion, key := 6, val := [7] }) rfl
    (by unfold DB.Fits; decide) (Or.inl rfl) (fun _ => rfl) (by rfl)).1
/-- C04 on this execution -/
example : d6.getMaxSeqNum = some 5 := (C04_numbers_increase r6).2.2
/-- C06 on this execution -/
example (k : Nat) : d5.get k = d4.get k :=
  (C06_flush_invisible_partial (db' := d5) (o := {}) (n := 2) r4 rfl (Or.inr (Or.inl ⟨{ seq := 2, type := .insertion, key := 6, val := [2] },
    by decide, Or.inr ⟨3, by decide, by decide⟩⟩)) (st := .ok) (by rfl) k).1
/-- C13 on this execution: number 3 is already used -/
example : d5.setRecordBatch [{ seq := 4, type := .insertion, key := 1 },
      { seq := 3, type := .insertion, key := 2 }] = (.invalidSeqnum, d5) :=
  (C13_invalid_batch_no_effect r5 _ (by unfold DB.Fits; decide) (by decide) rfl rfl).2
    (by rintro ⟨-, h | ⟨-, -, h⟩⟩
        · have := h _ List.mem_cons_self; revert this; decide
        · have := h { seq := 3, type := .insertion, key := 2 } (by simp); revert this; decide)

end Example
end Jungle
