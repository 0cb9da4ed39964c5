/-
  Specification vocabulary: a key-value store as the history of accepted writes.
  Nothing here mentions the implementation.
-/
import Verif.Basic

namespace Jungle.Spec
variable {K : Type} [DecidableEq K]

/-- The last write (insertion or deletion) of key `k` in a history; command records do not
    belong to the key space. -/
def lastWrite (h : List (Rec K)) (k : K) : Option (Rec K) :=
  (h.filter (fun r => !r.isCmd && decide (r.key = k))).getLast?

/-- What a reader must see: the last write, unless it is a deletion. -/
def vis : Option (Rec K) → Option (Rec K)
  | some r => if r.isDel then none else some r
  | none => none

/-- The value of `k` after history `h`. -/
def valueOf (h : List (Rec K)) (k : K) : Option (Rec K) := vis (lastWrite h k)

/-- Sequence numbers strictly increase along the history. -/
def Increasing (h : List (Rec K)) : Prop := h.Pairwise (fun a b => a.seq < b.seq)

/-- The record as it enters the history with number `s`; a deletion carries no value. -/
def stamp (r : Rec K) (s : Nat) : Rec K :=
  { r with seq := s, val := if r.isDel then [] else r.val }

/-- Numbering of records written one after the other when `m` is the highest number so far: a
    record without a number gets the next one, a record with a number keeps it. -/
def number (m : Nat) : List (Rec K) → List (Rec K)
  | [] => []
  | r :: rs =>
    let s := if r.seq = NIL then m + 1 else r.seq
    stamp r s :: number s rs

theorem lastWrite_nil (k : K) : lastWrite ([] : List (Rec K)) k = none := rfl

theorem lastWrite_append (h h' : List (Rec K)) (k : K) :
    lastWrite (h ++ h') k = (lastWrite h' k).or (lastWrite h k) := by
  simp only [lastWrite, List.filter_append, List.getLast?_append]

theorem lastWrite_snoc (h : List (Rec K)) (r : Rec K) (k : K) :
    lastWrite (h ++ [r]) k = if r.isCmd = false ∧ r.key = k then some r else lastWrite h k := by
  rw [lastWrite_append]
  by_cases h1 : r.isCmd <;> by_cases h2 : r.key = k <;> simp [lastWrite, List.filter, h1, h2]

/-- What the specification says a read returns: the value of the last write, if that was an
    insertion. -/
def answer (h : List (Rec K)) (k : K) : Status × Option Bytes :=
  match lastWrite h k with
  | some r => if r.isIns then (.ok, some r.val) else (.keyNotFound, none)
  | none => (.keyNotFound, none)

/-- The same for the whole record. -/
def answerRec (h : List (Rec K)) (k : K) : Status × Option (Rec K) :=
  match lastWrite h k with
  | some r => if r.isIns then (.ok, some r) else (.keyNotFound, none)
  | none => (.keyNotFound, none)

theorem lastWrite_mem {h : List (Rec K)} {k : K} {r : Rec K} (hr : lastWrite h k = some r) :
    r ∈ h ∧ r.key = k ∧ r.isCmd = false := by
  unfold lastWrite at hr
  have := List.mem_of_getLast? hr
  rw [List.mem_filter] at this
  simp only [Bool.and_eq_true, Bool.not_eq_true', decide_eq_true_eq] at this
  exact ⟨this.1, this.2.2, this.2.1⟩

/-- The last write of a key has the highest number among the records of the key. -/
theorem lastWrite_max {h : List (Rec K)} (hi : Increasing h) {k : K} {r : Rec K} (hr : lastWrite h k = some r)
    {x : Rec K} (hx : x ∈ h) (hk : x.key = k) (hc : x.isCmd = false) : x.seq ≤ r.seq := by
  unfold lastWrite at hr
  have hp : (h.filter (fun r => !r.isCmd && decide (r.key = k))).Pairwise (fun a b => a.seq < b.seq) :=
    List.Pairwise.sublist List.filter_sublist hi
  obtain ⟨l, hl⟩ := List.getLast?_eq_some_iff.1 hr
  have hxm : x ∈ h.filter (fun r => !r.isCmd && decide (r.key = k)) := by
    rw [List.mem_filter]; exact ⟨hx, by simp [hk, hc]⟩
  rw [hl] at hp hxm
  rcases List.mem_append.1 hxm with h1 | h1
  · exact Nat.le_of_lt ((List.pairwise_append.1 hp).2.2 x h1 r (by simp))
  · simp only [List.mem_singleton] at h1; exact Nat.le_of_eq (by rw [h1])

theorem lastWrite_none {h : List (Rec K)} {k : K} :
    lastWrite h k = none ↔ ∀ r ∈ h, r.key = k → r.isCmd = true := by
  unfold lastWrite
  rw [List.getLast?_eq_none_iff, List.filter_eq_nil_iff]
  constructor
  · intro h1 r hr hk
    have := h1 r hr
    simpa [hk] using this
  · intro h1 r hr
    by_cases hk : r.key = k
    · simp [h1 r hr hk]
    · simp [hk]

end Jungle.Spec
