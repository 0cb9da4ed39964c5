/-
  Requests to compact all tables up to a number (`DB::compactIdxUpto`): how long they are in effect and what
  the compactor does for them.
-/
import Mathlib.Data.List.Nodup
import Verif.Basic

namespace Jungle
namespace Urgent

/-- `urgentCompactionMaxTableIdx` and `urgentCompactionTimer` (src/table_mgr.h:586-592); times in microseconds. -/
structure Req where
  idx : Nat := 0
  durUs : Nat := 0
  since : Nat := 0
  deriving DecidableEq

/-- `TableMgr::setUrgentCompactionTableIdx` (src/table_mgr.cc:1148-1158), `Timer::setDurationMs` and `reset`
    (src/internal_helper.h:152-159); the products wrap. -/
def setReq (now upto expirySec : Nat) : Req := ⟨upto, expirySec * 1000 % 2 ^ 64 * 1000 % 2 ^ 64, now⟩

/-- `TableManifest::getSmallestTableIdx` (src/table_manifest.cc:880-898), over all levels. -/
def smallest (ts : List Nat) : Nat := ts.foldl (fun m t => min t m) NIL

/-- `Timer::timeout` (src/internal_helper.h:160-165); the clock does not go back. -/
def timeout (now : Nat) (r : Req) : Bool := decide (r.durUs < now - r.since)

/-- `TableMgr::autoClearUrgentCompactionTableIdx` (src/table_mgr.cc:1160-1187). -/
def autoClear (now : Nat) (ts : List Nat) (r : Req) : Req :=
  if r.idx = 0 then r
  else if smallest ts = 0 then r
  else
    let r := if r.idx < smallest ts then setReq now 0 0 else r
    if r.durUs / 1000 / 1000 ≠ 0 ∧ timeout now r = true then setReq now 0 0 else r

/-- The numbers of the tables of all levels, the last number given to a table, the request, and how many
    compactions were made because of it. -/
structure St where
  ts : List Nat
  maxNum : Nat
  req : Req
  urgent : Nat := 0
  deriving DecidableEq

/-- What happens after a request.  A compaction made for it needs a table up to the number
    (`chkL0CompactCond`, src/table_compact_condition.cc:495-504; `chkLPCompactCond`, 700-712 with 131-136: see C68);
    the table is replaced by `k` tables with new numbers (`issueTableNumber`, src/table_manifest.cc:444-458). -/
inductive Step : St → St → Prop
  /-- a pass of the compactor over the database (src/compactor.cc:158) -/
  | pass (now : Nat) (s : St) : Step s { s with req := autoClear now s.ts s.req }
  | urgent (s : St) (v k : Nat) : s.req.idx ≠ 0 → v ∈ s.ts → v ≤ s.req.idx → s.maxNum + k < NIL →
      Step s { s with ts := s.ts.erase v ++ List.range' (s.maxNum + 1) k, maxNum := s.maxNum + k, urgent := s.urgent + 1 }
  /-- any other flush, compaction, split or merge: some tables are removed, `k` new ones added -/
  | other (s : St) (rest : List Nat) (k : Nat) : rest.Sublist s.ts → s.maxNum + k < NIL →
      Step s { s with ts := rest ++ List.range' (s.maxNum + 1) k, maxNum := s.maxNum + k }

inductive Run : St → St → Prop
  | refl (s) : Run s s
  | step {s t u} : Step s t → Run t u → Run s u

/-! ### Lemmas -/

theorem smallest_le_aux (ts : List Nat) : ∀ a, (ts.foldl (fun m t => min t m) a ≤ a ∧ ∀ t ∈ ts, ts.foldl (fun m t => min t m) a ≤ t) ∧
    (ts.foldl (fun m t => min t m) a = a ∨ ts.foldl (fun m t => min t m) a ∈ ts) := by
  induction ts with
  | nil => intro a; exact ⟨⟨Nat.le_refl _, fun t ht => (by cases ht)⟩, Or.inl rfl⟩
  | cons x xs ih =>
    intro a
    obtain ⟨⟨h1, h2⟩, h3⟩ := ih (min x a)
    rw [List.foldl_cons]
    refine ⟨⟨by omega, fun t ht => ?_⟩, ?_⟩
    · rcases List.mem_cons.1 ht with rfl | ht
      · omega
      · exact h2 t ht
    · rcases h3 with h | h
      · rcases Nat.le_total x a with hx | hx
        · right; rw [h, Nat.min_eq_left hx]; exact List.mem_cons_self
        · left; rw [h, Nat.min_eq_right hx]
      · right; exact List.mem_cons_of_mem _ h

theorem smallest_le {ts : List Nat} {t : Nat} (h : t ∈ ts) : smallest ts ≤ t := (smallest_le_aux ts NIL).1.2 t h

theorem smallest_mem (ts : List Nat) : smallest ts = NIL ∨ smallest ts ∈ ts := (smallest_le_aux ts NIL).2

theorem autoClear_idx (now : Nat) (ts : List Nat) (r : Req) : autoClear now ts r = r ∨ (autoClear now ts r).idx = 0 := by
  unfold autoClear
  dsimp only
  split
  · exact Or.inl rfl
  · split
    · exact Or.inl rfl
    · split <;> split <;> first | exact Or.inl rfl | exact Or.inr rfl

end Urgent
end Jungle
