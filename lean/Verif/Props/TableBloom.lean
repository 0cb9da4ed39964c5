/-
  Point reads with the Bloom filters of the tables switched on (C01, C02).
-/
import Verif.Table.BloomInv
import Verif.Codec.Bloom
import Verif.Props.KV
import Verif.Props.Iter

set_option linter.unusedSectionVars false

namespace Jungle
open Spec

variable {K : Type} [LinearOrder K] [OrderBot K] {c : TCfg K} {parts : Nat} {hp : 0 < parts}

/-- `DB::get` on the live handle (src/jungle.cc:635-672) of a database with Bloom filters
    (`bloomFilterBitsPerUnit > 0`, `useBloomFilterForGet`). -/
def DB.getBf (f : Filter K) (db : DB K (Lsm c parts hp)) (k : K) : Status × Option Bytes :=
  if db.check .read ≠ .ok then (db.check .read, none)
  else match db.log.get k with
  | (.ok, some r) => if r.isIns then (.ok, some r.val) else (.keyNotFound, none)
  | _ =>
    match (if db.log.cfg.logSectionOnly then none else TMgr.getBf f c db.table k) with
    | some r => if r.isIns then (.ok, some r.val) else (.keyNotFound, none)
    | none => (.keyNotFound, none)

/-- The filter the code builds: `size` bits, 3 hash functions derived from a pair of hash values, one `set` for
    every key added (src/table_file.cc:388-397,922-929, src/bloomfilter.cc). -/
def bloomOf (size : Nat) (H : K → Nat × Nat) : Filter K := fun x k =>
  match (Bloom.create size 3).addAll (x.added.map H) with
  | some b => b.check (H k) == some true
  | none => true

/-- It reports every key added. -/
theorem bloomOf_noMiss (size : Nat) (hs : 0 < size) (H : K → Nat × Nat) : (bloomOf size H).NoMiss := by
  intro x k hk
  obtain ⟨c1, -, c3, -⟩ := Bloom.create_spec size 3
  obtain ⟨b, e, -, -, -, -, g, -⟩ := Bloom.addAll_spec (x.added.map H) _ ⟨c3, by omega⟩
  unfold bloomOf
  rw [e]
  simp only [g _ (List.mem_map_of_mem hk)]
  rfl

/-- The number of the last flushed record bounds the flushed part of the history. -/
theorem LogInv.flushed_bound {l : LogMgr K} {A B : List (Rec K)} (h : LogInv l A B) {r : Rec K} (hr : r ∈ A) :
    ∃ n, l.getLastFlushedSeqNum = some n ∧ r.seq ≤ n := by
  obtain ⟨f, fs, e⟩ : ∃ f fs, l.files = f :: fs := by
    cases hl : l.files with
    | nil => exact absurd hl h.ne
    | cons f fs => exact ⟨f, fs, rfl⟩
  obtain ⟨h1, h2⟩ := h.mark f fs e r hr
  have hmin : l.minNum = f.num := by unfold LogMgr.minNum; rw [e]
  refine ⟨f.mem.flushedSeqNum, ?_, h2⟩
  unfold LogMgr.getLastFlushedSeqNum
  rw [h.getLastFlushedLog_eq, hmin, h.file?_mem (e ▸ List.mem_cons_self)]
  simp [h1]

/-- C02, C01 with Bloom filters in the tables: a read returns the value of the last accepted write of the key,
    and nothing if there is none or it is a deletion.

    Missing: a key whose last write is a deletion that has been flushed.  There it is false
    (`C02_bloom_violation`). -/
theorem C02_bloom_partial {db : DB K (Lsm c parts hp)} {h : List (Rec K)} (hr : Reach db h)
    (hc : db.closing = false) (f : Filter K) (hf : f.NoMiss) (k : K)
    (hd : ∀ d, lastWrite h k = some d → d.isDel = true → ∀ n, db.getLastFlushedSeqNum = some n → n < d.seq) :
    db.getBf f k = answer h k := by
  obtain ⟨A, B, rfl, hinv, hn, hcov⟩ := hr.inv_with (TMgr.covered_pred c parts hp)
  have ht : TMgr.Inv c (db.table : TMgr K) := hinv.table
  unfold DB.getBf
  rw [show db.check .read = .ok by simp [DB.check, hc]]
  simp only [ne_eq, not_true_eq_false, if_false, hinv.log.get_eq, hinv.mode, Bool.false_eq_true]
  unfold answer
  rw [lastWrite_append]
  cases hB : lastWrite B k with
  | some r => simp only [Option.some_or]
  | none =>
    simp only [Option.none_or]
    have ho : vis (TMgr.get c (db.table : TMgr K) k) = valueOf A k := hinv.old k hB
    have hth := TMgr.getBf_thru hf ht hcov k
    unfold valueOf at ho
    cases hA : lastWrite A k with
    | none =>
      have : TMgr.getBf f c (db.table : TMgr K) k = none := by
        cases hg : TMgr.getBf f c (db.table : TMgr K) k with
        | none => rfl
        | some r =>
          exfalso
          obtain ⟨m1, m2, m3⟩ := hn.mem k r (TMgr.getBf_mem ht hg)
          have : lastWrite (A ++ B) k = none := by rw [lastWrite_append, hB, hA]; rfl
          have := lastWrite_none.1 this r m1 m2
          rw [m3] at this; cases this
      rw [this]
    | some d =>
      rw [hA] at ho
      have hlast : lastWrite (A ++ B) k = some d := by rw [lastWrite_append, hB, hA]; rfl
      by_cases hdel : d.isDel = true
      · obtain ⟨n, e1, e2⟩ := hinv.log.flushed_bound (lastWrite_mem hA).1
        have := hd d hlast hdel n e1
        omega
      · simp only [vis, hdel, Bool.false_eq_true, if_false] at ho
        have hg : TMgr.get c (db.table : TMgr K) k = some d := by
          cases hg : TMgr.get c (db.table : TMgr K) k with
          | none => rw [hg] at ho; cases ho
          | some r =>
            rw [hg] at ho
            simp only at ho
            split at ho
            · cases ho
            · exact ho
        rw [hth.1 d hg (by simpa using hdel)]

/-- C01 with Bloom filters: a value that is the last write of its key is returned. -/
theorem C01_bloom {db : DB K (Lsm c parts hp)} {h : List (Rec K)} (hr : Reach db h)
    (hc : db.closing = false) (f : Filter K) (hf : f.NoMiss) {k : K} {r : Rec K} (hl : lastWrite h k = some r)
    (hi : r.isIns = true) : db.getBf f k = (.ok, some r.val) := by
  rw [C02_bloom_partial hr hc f hf k (by
    intro d h1 h2
    rw [hl] at h1; cases h1
    unfold Rec.isIns at hi; unfold Rec.isDel at h2
    cases ht : r.type <;> simp_all)]
  unfold answer
  rw [hl]; simp [hi]

/-- Whatever the filters answer, a read returns nothing but a value written to the key. -/
theorem C01_bloom_no_invention {db : DB K (Lsm c parts hp)} {h : List (Rec K)} (hr : Reach db h)
    (f : Filter K) {k : K} {st : Status} {v : Bytes} (hg : db.getBf f k = (st, some v)) :
    st = .ok ∧ ∃ r ∈ h, r.key = k ∧ r.isIns = true ∧ r.val = v := by
  obtain ⟨A, B, rfl, hinv, hn, hcov⟩ := hr.inv_with (TMgr.covered_pred c parts hp)
  have ht : TMgr.Inv c (db.table : TMgr K) := hinv.table
  unfold DB.getBf at hg
  split at hg
  · cases hg
  · simp only [hinv.log.get_eq, hinv.mode, Bool.false_eq_true, if_false] at hg
    cases hB : lastWrite B k with
    | some r =>
      simp only [hB] at hg
      split at hg
      · next hi =>
        cases hg
        have := lastWrite_mem hB
        exact ⟨rfl, r, List.mem_append_right _ this.1, this.2.1, hi, rfl⟩
      · cases hg
    | none =>
      simp only [hB] at hg
      cases hq : TMgr.getBf f c (db.table : TMgr K) k with
      | none => rw [hq] at hg; cases hg
      | some r =>
        rw [hq] at hg
        simp only at hg
        split at hg
        · next hi =>
          cases hg
          obtain ⟨m1, m2, -⟩ := hn.mem k r (TMgr.getBf_mem ht hq)
          exact ⟨rfl, r, m1, m2, hi, rfl⟩
        · cases hg

/-! ### examples and counterexamples -/
namespace BloomEx
open IterEx

/-- Two keys are flushed and moved to level 1; 7 is deleted, the deletion is still in the log. -/
def s1 := (start [.put 7 1, .put 8 2, .sync, .flush, .l0Begin 0, .l0End 0, .rm 7]).get (by decide +kernel)
theorem r1 : Reach s1.1 s1.2 := Cmd.start_reach plain (Option.some_get _).symm
/-- The deletion is flushed. -/
def s2 := (start [.put 7 1, .put 8 2, .sync, .flush, .l0Begin 0, .l0End 0, .rm 7, .sync, .flush]).get (by decide +kernel)
theorem r2 : Reach s2.1 s2.2 := Cmd.start_reach plain (Option.some_get _).symm
/-- The filter of the code with 64 bits. -/
def bf : Filter Nat := bloomOf 64 (fun k => (k, 7 * k + 1))
theorem bf_ok : bf.NoMiss := bloomOf_noMiss 64 (by decide) _

/-- The hypotheses of `C02_bloom_partial` are met for every key. -/
example (k : Nat) : s1.1.getBf bf k = answer s1.2 k := by
  apply C02_bloom_partial r1 rfl bf bf_ok k
  intro d hd1 hd2 n hn
  have hn' : s1.1.getLastFlushedSeqNum = some 2 := by decide +kernel
  rw [hn'] at hn; cases hn
  have := lastWrite_mem hd1
  have hall : ∀ d ∈ s1.2, d.isDel = true → 2 < d.seq := by decide +kernel
  exact hall d this.1 hd2
example : s1.1.getBf bf 7 = (.keyNotFound, none) ∧ s1.1.getBf bf 8 = (.ok, some [2]) := by decide +kernel
/-- The filters do hide things: the level-0 table of `s2` holds the deletion of 7, its filter denies it. -/
example : ((s2.1.table : TMgr Nat).l0.map (fun x => (x.get 7, bf x 7))) =
    [(some { seq := 3, type := .deletion, key := 7 }, false)] := by decide +kernel

end BloomEx

open BloomEx in
/-- C02 is false with Bloom filters in the tables: flushing the deletion of a key brings its old value back.
    The deletion goes into a level-0 table without being added to the table's filter
    (src/table_file.cc:922-929), so the table is skipped and the older value in level 1 is returned. -/
theorem C02_bloom_violation : ∃ (db : DB Nat (Lsm IterEx.c 1 (by decide))) (h : List (Rec Nat)) (f : Filter Nat),
    Reach db h ∧ db.closing = false ∧ f.NoMiss ∧ answer h 7 = (.keyNotFound, none) ∧
    db.get 7 = (.keyNotFound, none) ∧ db.getBf f 7 = (.ok, some [1]) :=
  ⟨s2.1, s2.2, bf, r2, rfl, bf_ok, by decide +kernel, by decide +kernel, by decide +kernel⟩

end Jungle
