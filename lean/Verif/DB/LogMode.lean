/-
  How a directory is recognised as one in log section mode, and how opening it in one mode or the other
  sets up the table manifest.
-/
import Verif.Codec.TabMani

namespace Jungle
namespace LogMode
open TabMani

/-- The options `TableMgr::init` reads (src/table_mgr.cc:173-321). -/
structure OpenOpt where
  logOnly : Bool := false
  readOnly : Bool := false
  /-- `nextLevelExtension`; without it there is level 0 only -/
  nextLevel : Bool := true
  parts : Nat := 4
  deriving DecidableEq

/-- The table section is enabled (src/table_mgr.cc:253-254, 278-279). -/
def OpenOpt.tables (o : OpenOpt) : Bool := !o.logOnly && !o.readOnly

/-- `DB::isLogSectionMode` (src/jungle.cc:185-221) of a directory whose table manifest has these bytes; `none`:
    there is no directory or no manifest.  A number that can not be read is 0
    (src/internal_helper.cc:195-225). -/
def isLogSectionMode : Option Bytes → Bool
  | none => false
  | some file =>
    match getU 8 file with
    | none => false
    | some (last, r) =>
      match getU 4 r with
      | none => false
      | some (n, _) => decide (last = NIL) && decide (n = 1)

/-- `TableManifest::create` (src/table_manifest.cc:91-113): stored at once. -/
def fresh : TabMani := ⟨NIL, [[]]⟩

/-- `TableManifest::issueTableNumber` (src/table_manifest.cc:444-458) by one thread (see C29). -/
def issue (n : Nat) : Nat := if n = NIL then 0 else n + 1

/-- `createNewTableFile` and `addTableFile` of partition `i` (src/table_mgr.cc:286-287, 424-425). -/
def addPart (m : TabMani) (i : Nat) : TabMani :=
  ⟨issue m.maxTable, match m.levels with
    | [] => []
    | l0 :: ls => (l0 ++ [⟨issue m.maxTable, i, 0, [], []⟩]) :: ls⟩

/-- The loops over the partitions (src/table_mgr.cc:281-288, 417-426). -/
def addParts (m : TabMani) (n : Nat) : TabMani := (List.range n).foldl addPart m

/-- The manifest after the first opening (src/table_mgr.cc:274-296). -/
def firstOpen (o : OpenOpt) : TabMani := if o.tables then addParts fresh o.parts else fresh

/-- The number of partitions found in a manifest (src/table_mgr.cc:215-222). -/
def numParts (m : TabMani) : Nat :=
  ((List.range (m.levels.headD []).length).takeWhile fun i => (m.levels.headD []).any fun t => t.hashNum == i).length

/-- The partitions have to be adjusted (src/table_mgr.cc:253-255). -/
def adjusts (o : OpenOpt) (m : TabMani) : Bool := o.tables && !(numParts m == o.parts)

/-- INVALID_CONFIG: `adjustNumL0Partitions` throws, and so `TableMgr::init` fails (src/table_mgr.cc:330-333, 316-320). -/
def refused (o : OpenOpt) (m : TabMani) : Bool := adjusts o m && !o.nextLevel

/-- The tables of level 0 before the adjustment are removed (src/table_mgr.cc:428-431). -/
def dropOld (old m : TabMani) : TabMani :=
  ⟨m.maxTable, match m.levels with
    | [] => []
    | l0 :: ls => l0.filter (fun t => !(old.levels.headD []).any fun t' => t'.number == t.number) :: ls⟩

/-- A change of the manifest by a flush or a compaction: it needs a table to begin with, takes at most one new
    number (src/table_manifest.cc:444-458) and never removes a level (src/table_manifest.cc:425-442).
    Which tables there are afterwards is left open. -/
structure Move (m m' : TabMani) : Prop where
  some : ∃ l ∈ m.levels, l ≠ []
  num : m'.maxTable = m.maxTable ∨ m'.maxTable = issue m.maxTable
  fits : m.maxTable ≠ NIL → m.maxTable + 1 < NIL
  levels : m.levels.length ≤ m'.levels.length

inductive Moves : TabMani → TabMani → Prop
  | refl (m) : Moves m m
  | step {m m1 m2} : Move m m1 → Moves m1 m2 → Moves m m2

/-- The table manifests a directory can have, and the options of the openings that set up or adjusted their
    partitions without an error, oldest first. -/
inductive History : Option TabMani → List OpenOpt → Prop
  | nothing : History none []
  /-- a directory is opened for the first time -/
  | first (o : OpenOpt) : o.parts < NIL → History (some (firstOpen o)) [o]
  /-- the process dies behind the first `store` (src/table_manifest.cc:109-110) -/
  | dies (o : OpenOpt) : History (some fresh) []
  /-- it is opened again and the partitions need not be adjusted -/
  | keeps {m os} (o : OpenOpt) : History (some m) os → adjusts o m = false → History (some m) (os ++ [o])
  /-- it is opened again and the partitions are adjusted (src/table_mgr.cc:323-442) -/
  | adjusted {m m1 os} (o : OpenOpt) : History (some m) os → adjusts o m = true → refused o m = false → Moves m m1 →
      (m1.maxTable ≠ NIL → m1.maxTable + o.parts < NIL) → o.parts < NIL →
      History (some (dropOld m (addParts m1 o.parts))) (os ++ [o])
  /-- flushes and compactions, and those of an adjustment that failed or did not end -/
  | moves {m m1 os} : History (some m) os → Moves m m1 → History (some m1) os

/-! ### Lemmas -/

theorem enc_mode (m : TabMani) (hm : m.maxTable < 2 ^ 64) (hl : m.levels.length < 2 ^ 32) :
    isLogSectionMode (some m.enc) = (decide (m.maxTable = NIL) && decide (m.levels.length = 1)) := by
  unfold isLogSectionMode TabMani.enc frame
  dsimp only
  simp only [List.append_assoc]
  rw [getU_be (by simpa using hm)]
  dsimp only
  rw [getU_be (by simpa using hl)]

theorem issue_lt {n : Nat} (h : n ≠ NIL → n + 1 < NIL) : issue n < NIL := by
  unfold issue
  split
  · decide
  · next hn => exact h hn

theorem Move.fresh_absurd {m : TabMani} (h : Move fresh m) : False := by
  obtain ⟨l, hl, hne⟩ := h.some
  simp only [fresh, List.mem_singleton] at hl
  exact hne hl

theorem Moves.fresh {m m' : TabMani} (h : Moves m m') (hm : m = LogMode.fresh) : m' = LogMode.fresh := by
  induction h with
  | refl => exact hm
  | step h1 _ _ => subst hm; exact h1.fresh_absurd.elim

theorem Moves.num {m m' : TabMani} (h : Moves m m') (hm : m.maxTable < NIL) : m'.maxTable < NIL := by
  induction h with
  | refl => exact hm
  | step h1 _ ih =>
    apply ih
    rcases h1.num with e | e
    · omega
    · rw [e]; exact issue_lt h1.fits

theorem addParts_succ (m : TabMani) (n : Nat) : addParts m (n + 1) = addPart (addParts m n) n := by
  unfold addParts
  rw [List.range_succ, List.foldl_append]
  rfl

theorem addParts_num (m : TabMani) : ∀ n, (m.maxTable ≠ NIL → m.maxTable + n < NIL) → n < NIL → 0 < n →
    (addParts m n).maxTable = if m.maxTable = NIL then n - 1 else m.maxTable + n := by
  intro n
  induction n with
  | zero => intro _ _ h; exact absurd h (Nat.lt_irrefl 0)
  | succ n ih =>
    intro hf hn _
    rw [addParts_succ]
    show issue (addParts m n).maxTable = _
    by_cases h0 : n = 0
    · subst h0
      have : addParts m 0 = m := rfl
      rw [this]
      unfold issue
      split <;> omega
    · rw [ih (fun h => by have := hf h; omega) (by omega) (by omega)]
      unfold issue
      by_cases hm : m.maxTable = NIL
      · rw [if_pos hm, if_pos hm, if_neg (by omega)]; omega
      · have := hf hm
        rw [if_neg hm, if_neg hm, if_neg (by omega)]; omega

theorem addParts_lt (m : TabMani) (n : Nat) (h : m.maxTable ≠ NIL → m.maxTable + n < NIL) (hn : n < NIL) (h0 : 0 < n) :
    (addParts m n).maxTable < NIL := by
  rw [addParts_num m n h hn h0]
  split
  · omega
  · next hm => exact h hm

end LogMode
end Jungle
