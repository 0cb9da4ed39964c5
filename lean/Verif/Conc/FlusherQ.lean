/-
  Model of the queue of requests to the background flusher, `FlusherQueue::push` and `pop`
  (src/flusher.cc:39-75).  Both run under `queueLock`.
-/
import Verif.Basic
import Mathlib.Data.List.Nodup

namespace Jungle.FlusherQ

/-- `FlusherQueueElem` (src/flusher.h): target DB, `seqUpto`, completion handlers.  The other
    options (`fOptions`) are one opaque value. -/
structure Req where
  db : Nat
  upto : Nat
  opts : Nat
  handlers : List Nat
  deriving DecidableEq, Repr

abbrev Queue := List Req

/-- `push`: merged into the queued request of the same DB, or appended. -/
def push : Queue → Req → Queue
  | [], r => [r]
  | e :: q, r =>
    if e.db = r.db then
      { e with handlers := e.handlers ++ r.handlers, opts := r.opts, upto := r.upto } :: q
    else e :: push q r

/-- `pop`: the front. -/
def pop : Queue → Option Req × Queue
  | [] => (none, [])
  | e :: q => (some e, q)

/-- Any sequence of calls; `hist` is what was pushed and `out` what was popped, oldest first. -/
inductive Run : Queue → List Req → List Req → Prop
  | init : Run [] [] []
  | push {q hist out} (r : Req) : Run q hist out → Run (push q r) (hist ++ [r]) out
  | pop {q hist out} : Run q hist out → Run (pop q).2 hist (out ++ (pop q).1.toList)

theorem push_dbs (q : Queue) (r : Req) :
    (push q r).map (·.db) = if r.db ∈ q.map (·.db) then q.map (·.db) else q.map (·.db) ++ [r.db] := by
  induction q with
  | nil => simp [push]
  | cons e q ih =>
    unfold push; split
    · next h => simp [h]
    · next h =>
      rw [List.map_cons, ih, List.map_cons]
      have : r.db ≠ e.db := fun h' => h h'.symm
      by_cases hm : r.db ∈ q.map (·.db)
      · rw [if_pos hm, if_pos (List.mem_cons_of_mem _ hm)]
      · rw [if_neg hm, if_neg]; rfl
        simp only [List.mem_cons, not_or]; exact ⟨this, hm⟩

theorem push_nodup {q : Queue} (h : (q.map (·.db)).Nodup) (r : Req) : ((push q r).map (·.db)).Nodup := by
  rw [push_dbs]; split
  · exact h
  · next hm => exact List.nodup_append.2 ⟨h, by simp, fun a ha b hb => by
      rintro rfl; rw [List.mem_singleton] at hb; exact hm (hb ▸ ha)⟩

theorem Run.nodup {q hist out} (h : Run q hist out) : (q.map (·.db)).Nodup := by
  induction h with
  | init => exact List.nodup_nil
  | push r _ ih => exact push_nodup ih r
  | @pop q _ _ _ ih =>
    cases q with
    | nil => exact ih
    | cons e q => exact (List.nodup_cons.1 ih).2

/-- the completion handlers of the requests for one DB -/
def handlersOf (db : Nat) (l : List Req) : List Nat :=
  (l.filter (fun r => decide (r.db = db))).flatMap (·.handlers)

theorem handlersOf_append (db : Nat) (a b : List Req) :
    handlersOf db (a ++ b) = handlersOf db a ++ handlersOf db b := by
  simp [handlersOf]

theorem handlersOf_push {q : Queue} (h : (q.map (·.db)).Nodup) (r : Req) (db : Nat) :
    handlersOf db (push q r) = handlersOf db q ++ handlersOf db [r] := by
  induction q with
  | nil => simp [push, handlersOf]
  | cons e q ih =>
    have hn := List.nodup_cons.1 h
    unfold push; split
    · next he =>
      by_cases hd : e.db = db
      · have hnone : handlersOf db q = [] := by
          unfold handlersOf
          rw [List.filter_eq_nil_iff.2]; rfl
          intro x hx hx'
          have : x.db = db := by simpa using hx'
          exact hn.1 (List.mem_map.2 ⟨x, hx, this.trans hd.symm⟩)
        have e1 : handlersOf db (e :: q) = e.handlers ++ handlersOf db q := by
          simp [handlersOf, hd]
        have e2 : handlersOf db [r] = r.handlers := by simp [handlersOf, ← he, hd]
        rw [e1, e2, hnone, List.append_nil]
        have : handlersOf db ({ e with handlers := e.handlers ++ r.handlers, opts := r.opts, upto := r.upto } :: q)
            = (e.handlers ++ r.handlers) ++ handlersOf db q := by simp [handlersOf, hd]
        rw [this, hnone, List.append_nil]
      · have e2 : handlersOf db [r] = [] := by simp [handlersOf, ← he, hd]
        rw [e2, List.append_nil]
        simp [handlersOf, hd]
    · next he =>
      have e1 : ∀ l, handlersOf db (e :: l) = handlersOf db [e] ++ handlersOf db l := by
        intro l; exact handlersOf_append db [e] l
      rw [e1, ih hn.2, e1 q, List.append_assoc]

theorem Run.handlers {q hist out} (h : Run q hist out) (db : Nat) :
    handlersOf db out ++ handlersOf db q = handlersOf db hist := by
  induction h with
  | init => rfl
  | push r hr ih => rw [handlersOf_push hr.nodup, ← List.append_assoc, ih, handlersOf_append]
  | @pop q _ _ _ ih =>
    cases q with
    | nil => simpa [FlusherQ.pop] using ih
    | cons e q =>
      simp only [FlusherQ.pop, Option.toList]
      rw [← ih, handlersOf_append, List.append_assoc, ← handlersOf_append]; rfl

/-- the last request pushed for a DB -/
def lastFor (db : Nat) (l : List Req) : Option Req := l.reverse.find? (fun r => decide (r.db = db))

theorem push_mem {q : Queue} {r e : Req} (h : e ∈ push q r) (hq : (q.map (·.db)).Nodup) :
    (e ∈ q ∧ e.db ≠ r.db) ∨ (e.db = r.db ∧ e.upto = r.upto ∧ e.opts = r.opts) := by
  induction q with
  | nil => right; simp only [push, List.mem_singleton] at h; subst h; exact ⟨rfl, rfl, rfl⟩
  | cons a q ih =>
    have hn := List.nodup_cons.1 hq
    unfold push at h; split at h
    · next he =>
      rcases List.mem_cons.1 h with rfl | h
      · exact Or.inr ⟨he, rfl, rfl⟩
      · refine Or.inl ⟨List.mem_cons_of_mem _ h, fun hd => hn.1 ?_⟩
        exact List.mem_map.2 ⟨e, h, hd.trans he.symm⟩
    · next he =>
      rcases List.mem_cons.1 h with rfl | h
      · exact Or.inl ⟨List.mem_cons_self, he⟩
      · rcases ih h hn.2 with ⟨h1, h2⟩ | h1
        · exact Or.inl ⟨List.mem_cons_of_mem _ h1, h2⟩
        · exact Or.inr h1

theorem lastFor_append (db : Nat) (l : List Req) (r : Req) :
    lastFor db (l ++ [r]) = if r.db = db then some r else lastFor db l := by
  unfold lastFor; rw [List.reverse_append, List.reverse_singleton, List.singleton_append, List.find?_cons]
  by_cases h : r.db = db <;> simp [h]

theorem Run.last {q hist out} (h : Run q hist out) :
    ∀ e ∈ q, ∃ r, lastFor e.db hist = some r ∧ e.upto = r.upto ∧ e.opts = r.opts := by
  induction h with
  | init => simp
  | push r hr ih =>
    intro e he
    rw [lastFor_append]
    rcases push_mem he hr.nodup with ⟨h1, h2⟩ | ⟨h1, h2⟩
    · rw [if_neg (fun h => h2 h.symm)]; exact ih e h1
    · rw [if_pos h1.symm]; exact ⟨r, rfl, h2⟩
  | @pop q _ _ _ ih =>
    cases q with
    | nil => simp [FlusherQ.pop]
    | cons a q => intro e he; exact ih e (List.mem_cons_of_mem _ he)

end Jungle.FlusherQ
