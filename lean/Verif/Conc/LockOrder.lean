/-
  The write mutexes of the log managers and the threads that take several of them: global batches
  (src/global_batch.cc:45-138) beside ordinary writers, which take one (src/log_mgr.cc:616,705).
-/
import Mathlib.Data.Finset.Max
import Mathlib.Order.Defs.LinearOrder

namespace Jungle
set_option linter.unusedSectionVars false

/-- `GlobalBatch::pairList` (include/libjungle/global_batch.h), a set ordered by the path of the DB. -/
abbrev PairList (P B : Type) := List (P × B)

namespace PairList
variable {P B : Type} [LinearOrder P]

/-- `std::set::insert` with `BatchPairLess` (src/global_batch.cc:22-26): nothing happens if the path
    is there. -/
def insert (x : P × B) : PairList P B → PairList P B
  | [] => [x]
  | y :: ys => if x.1 < y.1 then x :: y :: ys else if x.1 = y.1 then y :: ys else y :: insert x ys

/-- `GlobalBatch::addBatch` (src/global_batch.cc:45-58). -/
def addBatch (l : PairList P B) (readOnly : Bool) (path : P) (b : B) : PairList P B :=
  if readOnly then l
  else if l.any (fun y => decide (y.1 = path)) then l
  else insert (path, b) l

/-- `GlobalBatch::GlobalBatch(db_list, batch_list)` (src/global_batch.cc:30-43) for lists of the same
    length. -/
def ofList (xs : List (Bool × P × B)) : PairList P B := xs.foldl (fun l x => addBatch l x.1 x.2.1 x.2.2) []

/-- The mutexes in the order `execute` takes them (src/global_batch.cc:71-74). -/
def locks (l : PairList P B) : List P := l.map (·.1)

theorem mem_insert {x y : P × B} {l : PairList P B} (h : y ∈ insert x l) : y = x ∨ y ∈ l := by
  induction l with
  | nil => exact Or.inl (by simpa [insert] using h)
  | cons z zs ih =>
    unfold insert at h
    split at h
    · rcases List.mem_cons.1 h with h | h
      · exact Or.inl h
      · exact Or.inr h
    · split at h
      · exact Or.inr h
      · rcases List.mem_cons.1 h with h | h
        · exact Or.inr (h ▸ List.mem_cons_self)
        · rcases ih h with h | h
          · exact Or.inl h
          · exact Or.inr (List.mem_cons_of_mem _ h)

theorem insert_sorted {x : P × B} {l : PairList P B} (h : l.Pairwise (fun a b => a.1 < b.1)) :
    (insert x l).Pairwise (fun a b => a.1 < b.1) := by
  induction l with
  | nil => simp [insert]
  | cons y ys ih =>
    obtain ⟨h1, h2⟩ := List.pairwise_cons.1 h
    unfold insert
    split
    · rename_i hlt
      refine List.pairwise_cons.2 ⟨fun z hz => ?_, h⟩
      rcases List.mem_cons.1 hz with rfl | hz
      · exact hlt
      · exact lt_trans hlt (h1 z hz)
    · rename_i hlt
      split
      · exact h
      · rename_i hne
        refine List.pairwise_cons.2 ⟨fun z hz => ?_, ih h2⟩
        rcases mem_insert hz with rfl | hz
        · exact lt_of_le_of_ne (not_lt.1 hlt) (Ne.symm hne)
        · exact h1 z hz

theorem addBatch_sorted {l : PairList P B} (h : l.Pairwise (fun a b => a.1 < b.1)) (ro : Bool) (p : P) (b : B) :
    (addBatch l ro p b).Pairwise (fun a b => a.1 < b.1) := by
  unfold addBatch
  split
  · exact h
  · split
    · exact h
    · exact insert_sorted h

theorem ofList_sorted (xs : List (Bool × P × B)) : (ofList xs).Pairwise (fun a b => a.1 < b.1) := by
  unfold ofList
  suffices H : ∀ l : PairList P B, l.Pairwise (fun a b => a.1 < b.1) →
      (xs.foldl (fun l x => addBatch l x.1 x.2.1 x.2.2) l).Pairwise (fun a b => a.1 < b.1) from
    H [] List.Pairwise.nil
  induction xs with
  | nil => exact fun l h => h
  | cons x xs ih => exact fun l h => ih _ (addBatch_sorted h _ _ _)

theorem locks_sorted (xs : List (Bool × P × B)) : (ofList xs).locks.Pairwise (· < ·) := by
  unfold locks
  rw [List.pairwise_map]
  exact ofList_sorted xs

end PairList

namespace LockOrder
variable {P : Type} [LinearOrder P]

/-- A thread: the mutexes it holds, in the order it took them, and those it still wants. -/
structure Th (P : Type) where
  held : List P := []
  todo : List P

/-- The threads, by number. -/
abbrev St (P : Type) := Nat → Th P

def St.set (s : St P) (i : Nat) (t : Th P) : St P := fun j => if j = i then t else s j

/-- One step of thread `i`: `writeMutex.lock()` (src/log_mgr.cc:684-686, src/global_batch.cc:71-74), or
    `writeMutex.unlock()` once all are taken (src/log_mgr.cc:688-690, src/global_batch.cc:85-95).  What
    it does to the DBs in between is left out. -/
inductive Step (s : St P) (i : Nat) : St P → Prop
  | lock {l ls} : (s i).todo = l :: ls → (∀ j, l ∉ (s j).held) → Step s i (s.set i ⟨(s i).held ++ [l], ls⟩)
  | unlock {l ls} : (s i).todo = [] → (s i).held = l :: ls → Step s i (s.set i ⟨ls, []⟩)

/-- States reachable when thread `i` wants the mutexes `w i` in this order. -/
inductive Reach (w : Nat → List P) : St P → Nat → Prop
  | init : Reach w (fun i => { todo := w i }) 0
  | step {s s' i t} : Reach w s t → Step s i s' → Reach w s' (t + 1)

def Th.Done (t : Th P) : Prop := t.held = [] ∧ t.todo = []

end LockOrder
end Jungle
