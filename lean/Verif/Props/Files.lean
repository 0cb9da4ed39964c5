/-
  C71: opening a database removes its leftover files and no others, and the queue of files to remove
  deletes no file that is in use, as long as no file is created under a name that is in the queue.
-/
import Verif.DB.Files

namespace Jungle
open Dir

/-! ### Specification -/

/-- What is in the directory besides foreign files: files with numbers of any sub-DB (those of sub-DB
    `p` below 2^31), manifests, their backups, and names such as `db_manifest`, `db_manifest.bak`,
    `system_logs.log`, `system_logs.log.3`. -/
inductive Expected (p : Nat) : Name → Prop
  | file (k : Kind) (q n : Nat) (hn : q = p → n < 2 ^ 31) : Expected p (fileName k q n)
  | bloom (q n : Nat) (hn : q = p → n < 2 ^ 31) : Expected p (bloomName q n)
  | mani (k : Kind) (q : Nat) : Expected p (maniName k q)
  | bak (k : Kind) (q : Nat) : Expected p (backup (maniName k q))
  | plain (u x : Name) (hu : ∀ c ∈ u, c.isDigit = false) (hx : '_' ∉ x) : Expected p (u ++ '_' :: x)

/-- The files that exist by the history: created, and neither destroyed nor deleted by the user. -/
def inUse : List Act → List Name → List Name
  | [], l => l
  | .create f :: as, l => inUse as (f :: l)
  | .destroy f :: as, l => inUse as (l.filter (· ≠ f))
  | .wipe :: as, _ => inUse as []
  | .take :: as, l => inUse as l
  | .unlink _ :: as, l => inUse as l
  | .force :: as, l => inUse as l

/-- No file is created under a name that is still to be removed. -/
def Fresh : Bin → List Act → Prop
  | _, [] => True
  | b, .create f :: as => f ∉ b.queue ∧ f ∉ b.taken ∧ Fresh (b.step (.create f)) as
  | b, a :: as => Fresh (b.step a) as

/-- One opening: the sub-DB, its mode and the numbers its manifests list. -/
structure Opening where
  readOnly : Bool
  p : Nat
  logs : List Nat
  tabs : List Nat

/-- Several sub-DBs are opened one after the other. -/
def openAll : List Opening → List Name → Option (List Name)
  | [], files => some files
  | o :: os, files => (openDB o.readOnly o.p o.logs o.tabs files).bind (openAll os)

/-! ### Names -/

example : fileName .log 0 5 = "log0000_00000005".toList := by decide
example : fileName .table 12 123456789 = "table0012_123456789".toList := by decide
example : maniName .log 7 = "log0007_manifest".toList := by decide
example : bloomName 0 3 = "table0000_00000003.bf".toList := by decide
example : backup (maniName .table 10000) = "table10000_manifest.bak".toList := by decide

/-- C71: two files of the library have the same name only if they are the same file. -/
theorem C71_names {k k' : Kind} {p q n m : Nat} (h : fileName k p n = fileName k' q m) :
    k = k' ∧ p = q ∧ n = m := by
  have hx : '_' ∉ pad 8 n := by simpa using us_pad (w := 8) (n := n) (r := []) (by simp)
  obtain ⟨-, h1, h2, h3⟩ := stem_at (a := []) (b := pad 8 m) (k := k') (p := q) hx (by simpa [fileName] using h)
  exact ⟨h1.symm, h2.symm, (pad_inj h3).symm⟩

/-! ### Opening -/

private theorem bf_us : '_' ∉ ['.', 'b', 'f'] := by decide
private theorem bf_dig : (['.', 'b', 'f'] : Name).takeWhile Char.isDigit = [] := by decide

theorem expected_stale {p : Nat} {f : Name} (h : Expected p f) (k : Kind) (listed : List Nat) :
    stale k p listed f ≠ none := by
  have key : ∀ (k' : Kind) (q n : Nat) (r : Name), '_' ∉ r → r.takeWhile Char.isDigit = [] → (q = p → n < 2 ^ 31) →
      stale k p listed (fileName k' q n ++ r) ≠ none := by
    intro k' q n r hr hd hn
    by_cases hk : k = k' ∧ p = q
    · obtain ⟨rfl, rfl⟩ := hk
      rw [stale_own hr hd (hn rfl)]; simp
    · have he : fileName k' q n ++ r = stem k' q ++ (pad 8 n ++ r) := by simp [fileName]
      rw [he, stale_other (us_pad hr) hk]; simp
  have keym : ∀ (k' : Kind) (q : Nat) (r : Name), '_' ∉ r → stale k p listed (maniName k' q ++ r) ≠ none := by
    intro k' q r hr
    by_cases hk : k = k' ∧ p = q
    · obtain ⟨rfl, rfl⟩ := hk
      rw [stale_mani]; simp
    · have he : maniName k' q ++ r = stem k' q ++ (['m', 'a', 'n', 'i', 'f', 'e', 's', 't'] ++ r) := by simp [maniName]
      rw [he, stale_other _ hk]
      · simp
      · intro hh
        rcases List.mem_append.1 hh with h | h
        · revert h; decide
        · exact hr h
  cases h with
  | file k' q n hn => simpa using key k' q n [] (by simp) (by simp) hn
  | bloom q n hn => exact key .table q n _ bf_us bf_dig hn
  | mani k' q => simpa using keym k' q [] (by simp)
  | bak k' q => exact keym k' q _ (by decide)
  | plain u x hu hx => rw [stale_plain hu hx]; simp

/-- C71: opening is defined on directories with the files of the library. -/
theorem C71_defined {files : List Name} {p : Nat} (h : ∀ f ∈ files, Expected p f) (ro : Bool) (logs tabs : List Nat) :
    ∃ out, openDB ro p logs tabs files = some out := by
  cases ro with
  | true => exact ⟨files, by simp [openDB, removeStale]⟩
  | false =>
    obtain ⟨o1, h1⟩ := removeStale_defined (k := .log) (p := p) (listed := logs) (files := files)
      (fun f hf => expected_stale (h f hf) _ _)
    obtain ⟨o2, h2⟩ := removeStale_defined (k := .table) (p := p) (listed := tabs) (files := o1)
      (fun f hf => expected_stale (h f ((mem_removeStale h1 f).1 hf).1) _ _)
    exact ⟨o2, by simp [openDB, h1, h2]⟩

theorem mem_open {p : Nat} {logs tabs : List Nat} {files out : List Name}
    (h : openDB false p logs tabs files = some out) (f : Name) :
    f ∈ out ↔ f ∈ files ∧ stale .log p logs f = some false ∧ stale .table p tabs f = some false := by
  unfold openDB at h
  obtain ⟨o1, h1, h2⟩ := Option.bind_eq_some_iff.1 h
  rw [mem_removeStale h2, mem_removeStale h1, and_assoc]

/-- C71: of the log files, the tables and their Bloom filters of this sub-DB exactly those that are
    listed stay. -/
theorem C71_leftovers_partial {p : Nat} {logs tabs : List Nat} {files out : List Name}
    (h : openDB false p logs tabs files = some out) {n : Nat} (hn : n < 2 ^ 31) :
    (fileName .log p n ∈ out ↔ fileName .log p n ∈ files ∧ n ∈ logs) ∧
      (fileName .table p n ∈ out ↔ fileName .table p n ∈ files ∧ n ∈ tabs) ∧
      (bloomName p n ∈ out ↔ bloomName p n ∈ files ∧ n ∈ tabs) := by
  have own : ∀ (k : Kind) (l : List Nat), stale k p l (fileName k p n) = some (!decide (n ∈ l)) := by
    intro k l
    simpa using stale_own (k := k) (p := p) (n := n) (listed := l) (r := []) (by simp) (by simp) hn
  have oth : ∀ (k k' : Kind) (l : List Nat) (r : Name), '_' ∉ r → k ≠ k' →
      stale k p l (fileName k' p n ++ r) = some false := by
    intro k k' l r hr hk
    have he : fileName k' p n ++ r = stem k' p ++ (pad 8 n ++ r) := by simp [fileName]
    rw [he, stale_other (us_pad hr) (fun hh => hk hh.1)]
  have oth0 : ∀ (k k' : Kind) (l : List Nat), k ≠ k' → stale k p l (fileName k' p n) = some false := by
    intro k k' l hk
    simpa using oth k k' l [] (by simp) hk
  refine ⟨?_, ?_, ?_⟩
  · rw [mem_open h, own, oth0 .table .log _ (by decide)]
    simp
  · rw [mem_open h, own, oth0 .log .table _ (by decide)]
    simp
  · rw [mem_open h]
    unfold bloomName
    rw [oth .log .table _ _ bf_us (by decide), stale_own bf_us bf_dig hn]
    simp

/-- C71: the files of the other sub-DBs, whatever their numbers, all manifests and their backups, and
    files like `db_manifest` are not touched, and no file appears. -/
theorem C71_others {p : Nat} {logs tabs : List Nat} {files out : List Name}
    (h : openDB false p logs tabs files = some out) :
    (∀ (k : Kind) (q n : Nat), q ≠ p → (fileName k q n ∈ out ↔ fileName k q n ∈ files)) ∧
      (∀ (q n : Nat), q ≠ p → (bloomName q n ∈ out ↔ bloomName q n ∈ files)) ∧
      (∀ (k : Kind) (q : Nat), (maniName k q ∈ out ↔ maniName k q ∈ files) ∧
        (backup (maniName k q) ∈ out ↔ backup (maniName k q) ∈ files)) ∧
      (∀ (u x : Name), (∀ c ∈ u, c.isDigit = false) → '_' ∉ x → (u ++ '_' :: x ∈ out ↔ u ++ '_' :: x ∈ files)) ∧
      (∀ f ∈ out, f ∈ files) := by
  have key : ∀ f, (∀ k l, stale k p l f = some false) → (f ∈ out ↔ f ∈ files) := by
    intro f hf
    rw [mem_open h, hf, hf]; simp
  have oth : ∀ (k : Kind) (q n : Nat) (r : Name), '_' ∉ r → q ≠ p → ∀ k' l,
      stale k' p l (fileName k q n ++ r) = some false := by
    intro k q n r hr hq k' l
    have he : fileName k q n ++ r = stem k q ++ (pad 8 n ++ r) := by simp [fileName]
    rw [he, stale_other (us_pad hr) (fun hh => hq hh.2.symm)]
  have keym : ∀ (k : Kind) (q : Nat) (r : Name), '_' ∉ r → ∀ k' l,
      stale k' p l (maniName k q ++ r) = some false := by
    intro k q r hr k' l
    by_cases hk : k' = k ∧ p = q
    · obtain ⟨rfl, rfl⟩ := hk
      exact stale_mani
    · have he : maniName k q ++ r = stem k q ++ (['m', 'a', 'n', 'i', 'f', 'e', 's', 't'] ++ r) := by simp [maniName]
      rw [he]
      refine stale_other ?_ hk
      intro hh
      rcases List.mem_append.1 hh with h | h
      · revert h; decide
      · exact hr h
  refine ⟨fun k q n hq => key _ ?_, fun q n hq => key _ (oth .table q n _ bf_us hq),
    fun k q => ⟨key _ ?_, key _ (keym k q _ (by decide))⟩, fun u x hu hx => key _ (fun k l => stale_plain hu hx),
    fun f hf => ((mem_open h f).1 hf).1⟩
  · simpa using oth k q n [] (by simp) hq
  · simpa using keym k q [] (by simp)

/-- C71: opening read-only removes nothing. -/
theorem C71_read_only (p : Nat) (logs tabs : List Nat) (files : List Name) :
    openDB true p logs tabs files = some files := by
  simp [openDB, removeStale]

/-- C71: however often sub-DBs are opened, a log file or a table that is listed whenever its sub-DB is
    opened stays. -/
theorem C71_sessions_partial {os : List Opening} {files out : List Name} (h : openAll os files = some out)
    {q n : Nat} (hn : n < 2 ^ 31) :
    (fileName .log q n ∈ files → (∀ o ∈ os, o.p = q → n ∈ o.logs) → fileName .log q n ∈ out) ∧
      (fileName .table q n ∈ files → (∀ o ∈ os, o.p = q → n ∈ o.tabs) → fileName .table q n ∈ out) := by
  induction os generalizing files with
  | nil => cases h; exact ⟨fun h _ => h, fun h _ => h⟩
  | cons o os ih =>
    unfold openAll at h
    obtain ⟨o1, h1, h2⟩ := Option.bind_eq_some_iff.1 h
    have hi := ih h2
    cases hro : o.readOnly with
    | true =>
      rw [hro, C71_read_only] at h1
      cases h1
      exact ⟨fun hf hl => hi.1 hf (fun x hx => hl x (by simp [hx])), fun hf hl => hi.2 hf (fun x hx => hl x (by simp [hx]))⟩
    | false =>
      rw [hro] at h1
      constructor
      · intro hf hl
        refine hi.1 ?_ (fun x hx => hl x (by simp [hx]))
        by_cases hq : q = o.p
        · rw [hq]
          exact (C71_leftovers_partial h1 hn).1.2 ⟨hq ▸ hf, hl o (by simp) hq.symm⟩
        · exact ((C71_others h1).1 .log q n hq).2 hf
      · intro hf hl
        refine hi.2 ?_ (fun x hx => hl x (by simp [hx]))
        by_cases hq : q = o.p
        · rw [hq]
          exact (C71_leftovers_partial h1 hn).2.1.2 ⟨hq ▸ hf, hl o (by simp) hq.symm⟩
        · exact ((C71_others h1).1 .table q n hq).2 hf

/-- C71 is false for numbers from 2^31: reading the number of a listed log file or table is undefined
    (where `atoi` takes the low 32 bits of the number, the file of number 2^31 counts as 2^64 - 2^31, which is
    not listed, and is deleted). -/
theorem C71_number_violation {p n : Nat} (hn : 2 ^ 31 ≤ n) {logs tabs : List Nat} {files : List Name}
    (_hl : n ∈ logs) (hf : fileName .log p n ∈ files) : openDB false p logs tabs files = none := by
  have hs : stale .log p logs (fileName .log p n) = none := by
    simpa using stale_large (k := .log) (p := p) (n := n) (listed := logs) (r := []) (by simp) (by simp) hn
  unfold openDB removeStale
  simp only [Bool.false_eq_true, if_false]
  have hany : files.any (fun f => (stale .log p logs f).isNone) = true :=
    List.any_eq_true.2 ⟨_, hf, by rw [hs]; rfl⟩
  rw [if_pos hany]
  rfl

/-- C71 is false of files of others: `old_log0000_00000005` does not belong to the database, and is
    deleted, even if log file 5 is listed; so is `catalog0000_index`. -/
theorem C71_foreign_violation :
    openDB false 0 [5] [0] ["log0000_00000005".toList, "table0000_00000000".toList, "old_log0000_00000005".toList,
      "catalog0000_index".toList] = some ["log0000_00000005".toList, "table0000_00000000".toList] := by
  decide

/-! ### The queue -/

theorem queue_inv {as : List Act} : ∀ {b : Bin} {l : List Name}, (∀ f ∈ l, f ∈ b.files ∧ f ∉ b.queue ∧ f ∉ b.taken) →
    Fresh b as → ∀ f ∈ inUse as l, f ∈ (b.run as).files ∧ f ∉ (b.run as).queue ∧ f ∉ (b.run as).taken := by
  induction as with
  | nil => intro b l h _; exact h
  | cons a as ih =>
    intro b l h hs
    unfold Bin.run
    rw [List.foldl_cons]
    cases a with
    | create g =>
      obtain ⟨h1, h2, h3⟩ := hs
      refine ih ?_ h3
      intro f hf
      by_cases hfg : f = g
      · subst hfg
        exact ⟨by simp [Bin.step], h1, h2⟩
      · have := h f (by simpa [hfg] using hf)
        exact ⟨by simp [Bin.step, hfg, this.1], this.2⟩
    | destroy g =>
      refine ih ?_ hs
      intro f hf
      obtain ⟨hf1, hf2⟩ := List.mem_filter.1 hf
      have hne : f ≠ g := by simpa using hf2
      have := h f hf1
      unfold Bin.step
      dsimp only
      split
      · exact ⟨this.1, by simp [this.2.1, hne], this.2.2⟩
      · exact this
    | take =>
      refine ih ?_ hs
      intro f hf
      have := h f hf
      unfold Bin.step
      dsimp only
      split
      · exact this
      · next g q hq =>
        rw [hq] at this
        simp only [List.mem_cons, not_or] at this
        exact ⟨this.1, this.2.1.2, by simp [this.2.1.1, this.2.2]⟩
    | unlink g =>
      refine ih ?_ hs
      intro f hf
      have := h f hf
      unfold Bin.step
      dsimp only
      split
      · next hg =>
        have hne : f ≠ g := fun hh => this.2.2 (hh ▸ hg)
        exact ⟨by simp [this.1, hne], this.2.1, fun hh => this.2.2 (List.mem_of_mem_erase hh)⟩
      · exact this
    | force =>
      refine ih ?_ hs
      intro f hf
      have := h f hf
      exact ⟨by simp [Bin.step, this.1, this.2.1], by simp [Bin.step], this.2.2⟩
    | wipe =>
      refine ih ?_ hs
      intro f hf
      cases hf

/-- C71: a file that is in use is there, as long as no file is created under a name that is in the
    queue. -/
theorem C71_queue_keeps_partial {as : List Act} (h : Fresh ⟨[], [], []⟩ as) :
    ∀ f ∈ inUse as [], f ∈ (Bin.run ⟨[], [], []⟩ as).files :=
  fun f hf => (queue_inv (by simp) h f hf).1

theorem queue_cover {as : List Act} : ∀ {b : Bin} {l : List Name},
    (∀ f ∈ b.files, f ∈ l ∨ f ∈ b.queue ∨ f ∈ b.taken) →
    ∀ f ∈ (b.run as).files, f ∈ inUse as l ∨ f ∈ (b.run as).queue ∨ f ∈ (b.run as).taken := by
  induction as with
  | nil => intro b l h; exact h
  | cons a as ih =>
    intro b l h
    unfold Bin.run
    rw [List.foldl_cons]
    cases a with
    | create g =>
      refine ih ?_
      intro f hf
      by_cases hfg : f = g
      · subst hfg; exact Or.inl (by simp)
      · simp only [Bin.step, List.mem_cons, hfg, false_or, List.mem_filter] at hf
        rcases h f hf.1 with h | h
        · exact Or.inl (by simp [h])
        · exact Or.inr h
    | destroy g =>
      refine ih ?_
      intro f hf
      unfold Bin.step at hf ⊢
      dsimp only at hf ⊢
      by_cases hg : g ∈ b.files
      · rw [if_pos hg] at hf ⊢
        by_cases hfg : f = g
        · exact Or.inr (Or.inl (by simp [hfg]))
        · rcases h f hf with h | h | h
          · exact Or.inl (by simp [h, hfg])
          · exact Or.inr (Or.inl (by simp [h]))
          · exact Or.inr (Or.inr h)
      · rw [if_neg hg] at hf ⊢
        have hfg : f ≠ g := fun hh => hg (hh ▸ hf)
        rcases h f hf with h | h
        · exact Or.inl (by simp [h, hfg])
        · exact Or.inr h
    | take =>
      refine ih ?_
      intro f hf
      unfold Bin.step at hf ⊢
      dsimp only at hf ⊢
      split at hf
      · exact h f hf
      · next g q hq =>
        rcases h f hf with h | h | h
        · exact Or.inl h
        · rw [hq] at h
          rcases List.mem_cons.1 h with h | h
          · exact Or.inr (Or.inr (by simp [h]))
          · exact Or.inr (Or.inl h)
        · exact Or.inr (Or.inr (by simp [h]))
    | unlink g =>
      refine ih ?_
      intro f hf
      unfold Bin.step at hf ⊢
      dsimp only at hf ⊢
      by_cases hg : g ∈ b.taken
      · rw [if_pos hg] at hf ⊢
        simp only [List.mem_filter, ne_eq, decide_not, Bool.not_eq_true', decide_eq_false_iff_not] at hf
        rcases h f hf.1 with h | h | h
        · exact Or.inl h
        · exact Or.inr (Or.inl h)
        · exact Or.inr (Or.inr ((List.mem_erase_of_ne hf.2).2 h))
      · rw [if_neg hg] at hf ⊢
        exact h f hf
    | force =>
      refine ih ?_
      intro f hf
      simp only [Bin.step, List.mem_filter, Bool.not_eq_true', decide_eq_false_iff_not] at hf
      rcases h f hf.1 with h | h | h
      · exact Or.inl h
      · exact absurd h hf.2
      · exact Or.inr (Or.inr h)
    | wipe =>
      refine ih ?_
      intro f hf
      cases hf

/-- C71: when the queue has been emptied, only files that are in use are left. -/
theorem C71_queue_empties {as : List Act} (hq : (Bin.run ⟨[], [], []⟩ as).queue = [])
    (ht : (Bin.run ⟨[], [], []⟩ as).taken = []) : ∀ f ∈ (Bin.run ⟨[], [], []⟩ as).files, f ∈ inUse as [] := by
  intro f hf
  rcases queue_cover (b := ⟨[], [], []⟩) (l := []) (by simp) f hf with h | h | h
  · exact h
  · rw [hq] at h; cases h
  · rw [ht] at h; cases h

/-- C71 without the condition is false: the queue keeps the names of a database that is gone, and
    removes the first log file of the database that was created in its place. -/
theorem C71_queue_violation :
    let a := fileName .log 0 0
    let as := [Act.create a, .destroy a, .wipe, .create a, .take, .unlink a]
    a ∈ inUse as [] ∧ a ∉ (Bin.run ⟨[], [], []⟩ as).files := by
  decide

/-! ### Examples -/
namespace FilesEx

/-- A directory after a crash: log 3 and table 2 are not listed any more, and sub-DB 1 has the same
    numbers. -/
def dir : List Name :=
  ["db_manifest".toList, "db_manifest.bak".toList, "system_logs.log.1".toList, "log0000_manifest".toList,
    "log0000_manifest.bak".toList, "log0000_00000003".toList, "log0000_00000004".toList,
    "table0000_manifest".toList, "table0000_00000002".toList, "table0000_00000002.bf".toList,
    "table0000_00000006".toList, "log0001_00000003".toList, "table0001_00000002".toList]

example : openDB false 0 [4] [6] dir =
    some ["db_manifest".toList, "db_manifest.bak".toList, "system_logs.log.1".toList, "log0000_manifest".toList,
      "log0000_manifest.bak".toList, "log0000_00000004".toList, "table0000_manifest".toList,
      "table0000_00000006".toList, "log0001_00000003".toList, "table0001_00000002".toList] := by decide

example : Expected 0 "system_logs.log.1".toList :=
  .plain ['s', 'y', 's', 't', 'e', 'm'] ['l', 'o', 'g', 's', '.', 'l', 'o', 'g', '.', '1'] (by decide) (by decide)
example : Expected 0 "table0000_00000002.bf".toList := .bloom 0 2 (by decide)
example : openDB false 0 [2 ^ 31] [] [fileName .log 0 (2 ^ 31)] = none := by decide
example : ∃ out, openAll [⟨false, 0, [4], [6]⟩, ⟨false, 1, [3], []⟩, ⟨false, 0, [4, 5], [6]⟩] dir = some out ∧
    fileName .log 0 4 ∈ out ∧ fileName .table 1 2 ∉ out := ⟨_, rfl, by decide⟩

/-- Files are created, replaced, destroyed and removed; nothing is created under a pending name. -/
def acts : List Act :=
  [.create (fileName .log 0 0), .create (fileName .log 0 1), .destroy (fileName .log 0 0), .take,
    .create (fileName .log 0 2), .unlink (fileName .log 0 0), .destroy (fileName .log 0 1), .force]

example : Fresh ⟨[], [], []⟩ acts := by simp only [acts, Fresh]; decide
example : inUse acts [] = [fileName .log 0 2] ∧ (Bin.run ⟨[], [], []⟩ acts) = ⟨[fileName .log 0 2], [], []⟩ := by decide

end FilesEx
end Jungle
