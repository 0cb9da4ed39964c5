/-
  Lemmas about the memtable model.
-/
import Verif.Log.MemTable
import Verif.Spec.KV

namespace Jungle
open Spec
set_option linter.unusedSectionVars false

variable {K : Type} [LinearOrder K]

theorem valid_iff {n : Nat} : valid n = true ↔ n ≠ NIL := by simp [valid]
theorem valid_of_lt {n : Nat} (h : n < NIL) : valid n = true := by
  rw [valid_iff]; omega

theorem inc64_of_lt {n : Nat} (h : n < NIL) : inc64 n = n + 1 := by
  unfold inc64; exact Nat.mod_eq_of_lt (by omega)

theorem inc64_NIL : inc64 NIL = 0 := by decide

/-- Records of key `k` that take part in the key index. -/
def keyRecs (l : List (Rec K)) (k : K) : List (Rec K) :=
  l.filter (fun r => !r.isCmd && decide (r.key = k))

theorem keyRecs_append (l l' : List (Rec K)) (k : K) :
    keyRecs (l ++ l') k = keyRecs l k ++ keyRecs l' k := by simp [keyRecs]

theorem lastWrite_eq (l : List (Rec K)) (k : K) : lastWrite l k = (keyRecs l k).getLast? := rfl

theorem mem_keyRecs {l : List (Rec K)} {k : K} {r : Rec K} :
    r ∈ keyRecs l k ↔ r ∈ l ∧ r.isCmd = false ∧ r.key = k := by
  simp [keyRecs, List.mem_filter]

namespace MemTable

/-- Consistency of a memtable: the two indexes hold the same records, in order, and the
    counters bound them. -/
structure WF (m : MemTable K) : Prop where
  sorted : Increasing m.bySeq
  keys : SMap.Sorted m.byKey
  idx : ∀ k, (m.byKey.find? k).getD [] = keyRecs m.bySeq k
  alloc : m.seqNumAlloc = m.maxSeqNum
  nil : m.maxSeqNum = NIL → m.bySeq = [] ∧ m.minSeqNum = NIL
  le_nil : m.maxSeqNum ≤ NIL
  bound : ∀ r ∈ m.bySeq, m.minSeqNum ≤ r.seq ∧ r.seq ≤ m.maxSeqNum ∧ 0 < r.seq ∧ r.seq < NIL
  minle : m.maxSeqNum ≠ NIL → m.minSeqNum ≤ m.maxSeqNum + 1
  synced : m.syncedSeqNum = NIL ∨ (m.syncedSeqNum ≤ m.maxSeqNum ∧ m.maxSeqNum < NIL)
  flushed : m.flushedSeqNum = NIL ∨ (m.flushedSeqNum ≤ m.maxSeqNum ∧ m.maxSeqNum < NIL)
  order : m.syncedSeqNum = NIL ∨ m.flushedSeqNum = NIL ∨ m.flushedSeqNum ≤ m.syncedSeqNum

/-- The part of `WF` that lookups by key depend on. -/
structure Look (m : MemTable K) : Prop where
  sorted : Increasing m.bySeq
  idx : ∀ k, (m.byKey.find? k).getD [] = keyRecs m.bySeq k
  le : ∀ r ∈ m.bySeq, r.seq ≤ m.maxSeqNum

theorem WF.look {m : MemTable K} (h : WF m) : Look m := ⟨h.sorted, h.idx, fun r hr => (h.bound r hr).2.1⟩

theorem WF.init (n : Nat) : WF (MemTable.init n : MemTable K) := by
  refine ⟨List.Pairwise.nil, List.Pairwise.nil, ?_, rfl, fun _ => ⟨rfl, rfl⟩, Nat.le_refl _,
    by simp [MemTable.init], fun h => absurd rfl h, Or.inl rfl, Or.inl rfl, Or.inl rfl⟩
  intro k; simp [MemTable.init, SMap.find?, keyRecs]

/-- The number an automatic write gets. -/
def next (m : MemTable K) : Nat :=
  if m.maxSeqNum = NIL then (if m.startSeqNum = 0 then 1 else m.startSeqNum) else m.maxSeqNum + 1

theorem insertBySeq_last {r : Rec K} {l : List (Rec K)} (h : ∀ x ∈ l, x.seq < r.seq) :
    insertBySeq r l = l ++ [r] := by
  induction l with
  | nil => rfl
  | cons a l ih =>
    simp only [insertBySeq]
    rw [if_pos (h a List.mem_cons_self), ih (fun x hx => h x (List.mem_cons_of_mem _ hx))]; rfl

theorem localRec_seq (r : Rec K) : (localRec r).seq = r.seq := by
  unfold localRec; split <;> rfl
theorem localRec_key (r : Rec K) : (localRec r).key = r.key := by
  unfold localRec; split <;> rfl
theorem localRec_type (r : Rec K) : (localRec r).type = r.type := by
  unfold localRec; split <;> rfl

/-- The record as accepted with number `s`. -/
def accepted (r : Rec K) (s : Nat) : Rec K := { localRec r with seq := s }

/-- Storing a record whose number is above everything in the table. -/
theorem store_spec {m m1 : MemTable K} (h : WF m) (r' : Rec K) (s : Nat) (hs : r'.seq = s)
    (h0 : 0 < s) (hN : s < NIL) (hgt : m.maxSeqNum = NIL ∨ m.maxSeqNum < s)
    (hm1 : m1 = { m with seqNumAlloc := s, minSeqNum := if m.maxSeqNum = NIL then s else m.minSeqNum })
    : let m2 := addToBySeqIndex m1 r'
      let m3 := if r'.isCmd then m2 else addToByKeyIndex m2 r'
      let m4 := updateMaxSeqNum m3 s
      WF m4 ∧ m4.bySeq = m.bySeq ++ [r'] ∧ m4.maxSeqNum = s ∧ m4.flushedSeqNum = m.flushedSeqNum ∧
      m4.syncedSeqNum = m.syncedSeqNum ∧
      m4.minSeqNum = (if m.maxSeqNum = NIL then s else m.minSeqNum) ∧
      m4.startSeqNum = m.startSeqNum ∧ m4.checkpoints = m.checkpoints ∧
      m4.checkpointsDirty = m.checkpointsDirty := by
  have hall : ∀ x ∈ m.bySeq, x.seq < s := by
    intro x hx
    rcases hgt with hg | hg
    · rw [(h.nil hg).1] at hx; cases hx
    · have := (h.bound x hx).2.1; omega
  have e1 : addToBySeqIndex m1 r' = { m1 with bySeq := m.bySeq ++ [r'] } := by
    subst hm1
    unfold addToBySeqIndex
    rw [if_neg]
    · simp only []; rw [insertBySeq_last (by rw [hs]; exact hall)]
    · rintro ⟨-, -, h3⟩
      simp only [List.any_eq_true, beq_iff_eq] at h3
      obtain ⟨x, hx, hxe⟩ := h3
      have := hall x hx; omega
  have e2 : (updateMaxSeqNum (if r'.isCmd = true then addToBySeqIndex m1 r'
                else addToByKeyIndex (addToBySeqIndex m1 r') r') s) =
      { m1 with bySeq := m.bySeq ++ [r'], maxSeqNum := s,
                byKey := if r'.isCmd then m.byKey else
                  m.byKey.upsert r'.key (fun o => (o.getD []) ++ [r']) } := by
    rw [e1]
    subst hm1
    have hmax : m.maxSeqNum < s ∨ m.maxSeqNum = NIL := hgt.symm
    cases hc : r'.isCmd <;> simp [updateMaxSeqNum, addToByKeyIndex, hmax]
  simp only []
  rw [e2]
  subst hm1
  refine ⟨?_, rfl, rfl, rfl, rfl, rfl, rfl, rfl, rfl⟩
  refine ⟨?_, ?_, ?_, rfl, ?_, Nat.le_of_lt hN, ?_, ?_, ?_, ?_, h.order⟩
  · refine List.pairwise_append.2 ⟨h.sorted, List.pairwise_singleton _ _, ?_⟩
    intro a ha b hb
    simp only [List.mem_singleton] at hb; subst hb
    rw [hs]; exact hall a ha
  · simp only []
    split
    · exact h.keys
    · exact h.keys.upsert _ _
  · intro k
    simp only [keyRecs_append]
    by_cases hc : r'.isCmd = true
    · have hk : keyRecs [r'] k = [] := by simp [keyRecs, hc]
      simp only [hc, if_true, hk, List.append_nil]; exact h.idx k
    · simp only [hc]
      have hc' : r'.isCmd = false := by simpa using hc
      rw [if_neg (by simp), SMap.find?_upsert h.keys]
      by_cases hk : k = r'.key
      · have hk2 : keyRecs [r'] k = [r'] := by simp [keyRecs, hc', hk]
        rw [if_pos hk, hk2, hk, ← h.idx]; rfl
      · have hk2 : keyRecs [r'] k = [] := by
          simp [keyRecs, Ne.symm hk]
        rw [if_neg hk, hk2, List.append_nil]; exact h.idx k
  · intro hx; exact absurd hx (by simp only []; omega)
  · intro x hx
    simp only [List.mem_append, List.mem_singleton] at hx
    simp only []
    rcases hx with hx | hx
    · have hb := h.bound x hx
      have := hall x hx
      have hne : m.maxSeqNum ≠ NIL := by intro e; rw [(h.nil e).1] at hx; cases hx
      rw [if_neg hne]; omega
    · subst hx
      refine ⟨?_, by omega, by omega, by omega⟩
      split
      · omega
      · -- the minimum never exceeds a newly stored number
        next hne =>
        have := h.minle hne
        omega
  · intro _; simp only []; split
    · omega
    · next hne => have := h.minle hne; omega
  · simp only []
    rcases h.synced with h1 | h1
    · exact Or.inl h1
    · exact Or.inr (by omega)
  · simp only []
    rcases h.flushed with h1 | h1
    · exact Or.inl h1
    · exact Or.inr (by omega)

/-- What a successful `putNewRecord` with number `s` leaves behind. -/
structure PutOk (m m' : MemTable K) (r : Rec K) (s : Nat) : Prop where
  wf : WF m'
  bySeq : m'.bySeq = m.bySeq ++ [accepted r s]
  max : m'.maxSeqNum = s
  flushed : m'.flushedSeqNum = m.flushedSeqNum
  synced : m'.syncedSeqNum = m.syncedSeqNum
  min : m'.minSeqNum = (if m.maxSeqNum = NIL then s else m.minSeqNum)
  start : m'.startSeqNum = m.startSeqNum
  chk : m'.checkpoints = m.checkpoints
  dirty : m'.checkpointsDirty = m.checkpointsDirty

theorem put_of_assign {cfg : Cfg} {m : MemTable K} (h : WF m) {r : Rec K} {s : Nat}
    (h0 : 0 < s) (hN : s < NIL) (hgt : m.maxSeqNum = NIL ∨ m.maxSeqNum < s)
    (ha : assignSeqNum cfg m r.seq = (.ok, { m with seqNumAlloc := s, minSeqNum := if m.maxSeqNum = NIL then s else m.minSeqNum }, s)) :
    ∃ m', putNewRecord cfg m r = (.ok, m') ∧ PutOk m m' r s := by
  have hs := store_spec h (accepted r s) s rfl h0 hN hgt rfl
  simp only [] at hs
  obtain ⟨h1, h2, h3, h4, h5, h6, h7, h8, h9⟩ := hs
  refine ⟨_, ?_, ⟨h1, h2, h3, h4, h5, h6, h7, h8, h9⟩⟩
  unfold putNewRecord
  simp only [localRec_seq]
  rw [ha]
  rfl

/-- An automatic write is always accepted, with the next number. -/
theorem put_auto {cfg : Cfg} {m : MemTable K} (h : WF m) {r : Rec K} (hr : r.seq = NIL)
    (hN : m.next < NIL) :
    ∃ m', putNewRecord cfg m r = (.ok, m') ∧ PutOk m m' r m.next := by
  have hgt : m.maxSeqNum = NIL ∨ m.maxSeqNum < m.next := by
    unfold next; split
    · next e => exact Or.inl e
    · exact Or.inr (by omega)
  have h0 : 0 < m.next := by unfold next; split <;> (try split) <;> omega
  apply put_of_assign h h0 hN hgt
  unfold assignSeqNum
  rw [if_pos hr, h.alloc]
  by_cases hm : m.maxSeqNum = NIL
  · have hn : m.next = if m.startSeqNum = 0 then 1 else m.startSeqNum := by
      unfold next; rw [if_pos hm]
    simp only [hm, if_true, hn]
  · have hlt : m.maxSeqNum < NIL := by have := h.le_nil; omega
    have hn : m.next = m.maxSeqNum + 1 := by unfold next; rw [if_neg hm]
    simp only [hm, if_false, hn, inc64_of_lt hlt]

/-- A write with an explicit number above the maximum is accepted with that number. -/
theorem put_explicit {cfg : Cfg} {m : MemTable K} (h : WF m) {r : Rec K}
    (h0 : 0 < r.seq) (hN : r.seq < NIL) (hgt : m.maxSeqNum = NIL ∨ m.maxSeqNum < r.seq) :
    ∃ m', putNewRecord cfg m r = (.ok, m') ∧ PutOk m m' r r.seq := by
  apply put_of_assign h h0 hN hgt
  unfold assignSeqNum
  rw [if_neg (by omega), h.alloc, if_neg (by rintro ⟨h1, h2, -⟩; omega)]
  by_cases hm : m.maxSeqNum = NIL
  · rw [if_neg (by rintro ⟨h1, -⟩; exact h1 (h.nil hm).2)]
  · rw [if_neg (by rintro ⟨h1, h2⟩; have := h.minle hm; omega)]

/-- A write with a number that is not above the maximum is rejected and changes nothing. -/
theorem put_reject {cfg : Cfg} {m : MemTable K} (h : WF m) {r : Rec K}
    (hc : cfg.allowOverwrite = false) (hm : m.maxSeqNum ≠ NIL) (hN : r.seq ≤ m.maxSeqNum) :
    putNewRecord cfg m r = (.invalidSeqnum, m) := by
  have := h.le_nil
  unfold putNewRecord assignSeqNum
  simp only [localRec_seq]
  rw [if_neg (by omega), h.alloc, if_pos ⟨hm, hN, hc⟩]

theorem find?_reverse_filter {α : Type} (p : α → Bool) (l : List α) :
    l.reverse.find? p = (l.filter p).getLast? := by
  induction l with
  | nil => rfl
  | cons a l ih =>
    rw [List.reverse_cons, List.find?_append, ih, List.filter_cons]
    cases hp : p a
    · simp [hp]
    · simp only [if_true, List.getLast?_cons, List.find?_cons, hp]
      cases h : (l.filter p).getLast? <;> simp

/-- Records of `l` not above `c`. -/
def upto (l : List (Rec K)) (c : Nat) : List (Rec K) := l.filter (fun r => decide (r.seq ≤ c))

theorem keyRecs_upto (l : List (Rec K)) (c : Nat) (k : K) :
    keyRecs (upto l c) k = upto (keyRecs l k) c := by
  simp only [keyRecs, upto, List.filter_filter]
  congr 1; funext r; rw [Bool.and_comm]

theorem upto_eq_self {l : List (Rec K)} {c : Nat} (h : ∀ r ∈ l, r.seq ≤ c) : upto l c = l := by
  unfold upto; rw [List.filter_eq_self]; intro r hr; simp [h r hr]

/-- Exact-key lookup in a memtable, up to number `c`. -/
theorem get_equal {m : MemTable K} (h : Look m) (c : Nat) (k : K) (af : Bool) :
    getRecordByKey m c k af true =
      match lastWrite (if c = NIL then m.bySeq else upto m.bySeq c) k with
      | none => (.keyNotFound, none)
      | some r => if m.flushedSeqNum ≠ NIL ∧ r.seq ≤ m.flushedSeqNum ∧ af = false
                  then (.keyNotFound, none) else (.ok, some r) := by
  unfold getRecordByKey cursorFor
  have hlat : ∀ l : List (Rec K), getLatestRecord l NIL c =
      (if c = NIL then l else upto l c).getLast? := by
    intro l
    unfold getLatestRecord
    rw [find?_reverse_filter]
    have e : (l.filter (fun r => !valid c || decide (r.seq ≤ c))) =
        (if c = NIL then l else upto l c) := by
      by_cases hc : c = NIL
      · subst hc; simp [valid]
      · have hv : valid c = true := valid_iff.2 hc
        simp [hv, hc, upto]
    rw [e]
    cases h : (if c = NIL then l else upto l c).getLast? <;> simp [valid]
  have hL : lastWrite (if c = NIL then m.bySeq else upto m.bySeq c) k =
      (if c = NIL then keyRecs m.bySeq k else upto (keyRecs m.bySeq k) c).getLast? := by
    rw [lastWrite_eq]; split
    · rfl
    · rw [keyRecs_upto]
  rw [hL]
  have hi := h.idx k
  cases hf : m.byKey.find? k with
  | none =>
    rw [hf] at hi
    rw [← hi]
    simp [upto]
  | some L =>
    rw [hf] at hi
    have hi : L = keyRecs m.bySeq k := hi
    subst hi
    simp only [Option.map_some, hlat]
    cases (if c = NIL then keyRecs m.bySeq k else upto (keyRecs m.bySeq k) c).getLast? with
    | none => rfl
    | some r => simp [valid]

/-- Exact-key lookup on the live handle: the bound is the table's maximum. -/
theorem get_live {m : MemTable K} (h : Look m) (k : K) :
    getRecordByKey m m.maxSeqNum k false true =
      match lastWrite m.bySeq k with
      | none => (.keyNotFound, none)
      | some r => if m.flushedSeqNum ≠ NIL ∧ r.seq ≤ m.flushedSeqNum
                  then (.keyNotFound, none) else (.ok, some r) := by
  rw [get_equal h]
  have : (if m.maxSeqNum = NIL then m.bySeq else upto m.bySeq m.maxSeqNum) = m.bySeq := by
    split
    · rfl
    · exact upto_eq_self h.le
  rw [this]; simp

end MemTable
end Jungle
