/-
  The files of a database directory: their names, which of them opening a database removes, and the
  queue of files that are to be removed later.
-/
import Mathlib.Data.List.Infix
import Mathlib.Data.List.Basic

namespace Jungle.Dir

/-- A file name. -/
abbrev Name := List Char

/-- `sprintf("%0wPRIu64", n)`: decimal, at least `w` digits, zeros in front
    (src/log_file.cc:83-84, src/table_file.cc:292-293). -/
def pad (w n : Nat) : Name := List.replicate (w - (Nat.toDigits 10 n).length) '0' ++ Nat.toDigits 10 n

/-- Log files and table files. -/
inductive Kind
  | log
  | table
  deriving DecidableEq

/-- The first word of a file name (src/log_mgr.cc:342, src/table_mgr.cc:454). -/
def Kind.word : Kind → Name
  | .log => ['l', 'o', 'g']
  | .table => ['t', 'a', 'b', 'l', 'e']

/-- What all files of a kind of sub-DB `p` begin with (src/log_mgr.cc:340-344, src/table_mgr.cc:452-456).
    Simplification: `p_num` has 16 bytes there, which a number of more than 15 digits overruns. -/
def stem (k : Kind) (p : Nat) : Name := k.word ++ pad 4 p ++ ['_']

/-- `LogFile::getLogFileName` (src/log_file.cc:74-87) and `TableFile::getTableFileName`
    (src/table_file.cc:283-296), without the path. -/
def fileName (k : Kind) (p n : Nat) : Name := stem k p ++ pad 8 n

/-- The file of the Bloom filter of a table (src/table_file.cc:396, 433). -/
def bloomName (p n : Nat) : Name := fileName .table p n ++ ['.', 'b', 'f']

/-- `LogMgr::getManifestFilename` (src/log_mgr.cc:56-60) and `TableMgr::getManifestFilename`
    (src/table_mgr.cc:167-171). -/
def maniName (k : Kind) (p : Nat) : Name := stem k p ++ ['m', 'a', 'n', 'i', 'f', 'e', 's', 't']

/-- The backup of a file (`BackupRestore`, src/internal_helper.cc:319, 330). -/
def backup (f : Name) : Name := f ++ ['.', 'b', 'a', 'k']

/-- `s.find(t) != std::string::npos`. -/
def has (s t : Name) : Bool := s.tails.any (fun u => t.isPrefixOf u)

/-- `isspace` of the C locale. -/
def isSpace (c : Char) : Bool :=
  c == ' ' || c == '\t' || c == '\n' || c == '\r' || c.toNat == 11 || c.toNat == 12

/-- The digits at the beginning, as a number. -/
def digits (s : Name) : Nat := Nat.ofDigitChars 10 (s.takeWhile Char.isDigit) 0

/-- `atoi`: blanks, one sign, digits.  `none`: the number is not one of `int`, for which C leaves the
    behaviour undefined. -/
def atoi (s : Name) : Option Int :=
  let t := s.dropWhile isSpace
  let v : Int := match t with
    | '-' :: r => -(digits r : Int)
    | '+' :: r => (digits r : Int)
    | r => (digits r : Int)
  if -2 ^ 31 ≤ v ∧ v < 2 ^ 31 then some v else none

/-- Conversion of an `int` to `uint64_t`. -/
def toU64 (i : Int) : Nat := (i % 2 ^ 64).toNat

/-- Whether the loop of `removeStaleFiles` removes the file (src/log_mgr.cc:350-366,
    src/table_mgr.cc:464-479): `none` is undefined behaviour. -/
def stale (k : Kind) (p : Nat) (listed : List Nat) (ff : Name) : Option Bool :=
  if has ff (stem k p) && !has ff (maniName k p) then
    match atoi (ff.drop (stem k p).length) with
    | none => none
    | some i => some (!decide (toU64 i ∈ listed))
  else some false

/-- `LogMgr::removeStaleFiles` (src/log_mgr.cc:333-375) and `TableMgr::removeStaleFiles`
    (src/table_mgr.cc:445-481): the files left in the directory.  `listed` are the numbers of the
    manifest (`logFileExist`, src/log_manifest.cc:667-675, `getTableNumbers`,
    src/table_manifest.cc:844-866).  Simplification: `::remove` succeeds, and the names are those of
    files (it also removes empty directories). -/
def removeStale (readOnly : Bool) (k : Kind) (p : Nat) (listed : List Nat) (files : List Name) :
    Option (List Name) :=
  if readOnly then some files
  else if files.any (fun f => (stale k p listed f).isNone) then none
  else some (files.filter (fun f => stale k p listed f == some false))

/-- Opening a (sub-)DB: the leftovers of the log section and then those of the tables are removed
    (`DB::open`, src/jungle.cc:139-162, `LogMgr::init`, src/log_mgr.cc:169, `TableMgr::init`,
    src/table_mgr.cc:308).  Simplification: files that opening creates are counted as there before. -/
def openDB (readOnly : Bool) (p : Nat) (logs tabs : List Nat) (files : List Name) : Option (List Name) :=
  (removeStale readOnly .log p logs files).bind (removeStale readOnly .table p tabs)

/-! ### The queue of files to remove -/

/-- A directory, the queue `filesToRemove` of the process (src/db_mgr.h) and what has been taken out
    of the queue and not been removed yet. -/
structure Bin where
  files : List Name
  queue : List Name
  taken : List Name
  deriving DecidableEq

/-- What happens to the directory. -/
inductive Act
  /-- A log or table file is created. -/
  | create (f : Name)
  /-- `destroySelf` (src/log_file.cc:681-699, src/table_file.cc:1626-1640) and `addFileToRemove`
      (src/db_mgr.cc:404-411). -/
  | destroy (f : Name)
  /-- `popFileToRemove` (src/db_mgr.cc:413-421). -/
  | take
  /-- `FileMgr::remove` of what was taken (src/cmd_handler.cc:107). -/
  | unlink (f : Name)
  /-- `forceRemoveFiles` (src/db_mgr.cc:423-435), also by the destructor (src/db_mgr.cc:245-258). -/
  | force
  /-- The database is closed and the user deletes its directory. -/
  | wipe

/-- One event. -/
def Bin.step (b : Bin) : Act → Bin
  | .create f => { b with files := f :: b.files.filter (· ≠ f) }
  | .destroy f => if f ∈ b.files then { b with queue := b.queue ++ [f] } else b
  | .take =>
    match b.queue with
    | [] => b
    | f :: q => { b with queue := q, taken := f :: b.taken }
  | .unlink f => if f ∈ b.taken then { b with files := b.files.filter (· ≠ f), taken := b.taken.erase f } else b
  | .force => { b with files := b.files.filter (fun f => !decide (f ∈ b.queue)), queue := [] }
  | .wipe => { b with files := [] }

/-- Several events. -/
def Bin.run (b : Bin) (as : List Act) : Bin := as.foldl Bin.step b

/-! ### Lemmas -/

theorem pad_digits (w n : Nat) : ∀ c ∈ pad w n, c.isDigit = true := by
  intro c hc
  unfold pad at hc
  rcases List.mem_append.1 hc with h | h
  · rw [(List.mem_replicate.1 h).2]; decide
  · exact Nat.isDigit_of_mem_toDigits (by decide) (by decide) h

theorem pad_value (w n : Nat) : Nat.ofDigitChars 10 (pad w n) 0 = n := by
  unfold pad
  rw [Nat.ofDigitChars_append, Nat.ofDigitChars_replicate_zero]
  simp

theorem pad_inj {w n m : Nat} (h : pad w n = pad w m) : n = m := by
  rw [← pad_value w n, h, pad_value]

theorem pad_ne_nil (w n : Nat) : pad w n ≠ [] := by
  unfold pad
  simp

theorem has_iff {s t : Name} : has s t = true ↔ ∃ a b, s = a ++ t ++ b := by
  unfold has
  rw [List.any_eq_true]
  constructor
  · rintro ⟨u, hu, hp⟩
    obtain ⟨a, ha⟩ := (List.mem_tails _ _).1 hu
    obtain ⟨b, hb⟩ := List.isPrefixOf_iff_prefix.1 hp
    exact ⟨a, b, by rw [← ha, ← hb]; simp⟩
  · rintro ⟨a, b, rfl⟩
    exact ⟨t ++ b, (List.mem_tails _ _).2 ⟨a, by simp⟩, List.isPrefixOf_iff_prefix.2 ⟨b, rfl⟩⟩

theorem takeWhile_digits {ds r : Name} (h : ∀ c ∈ ds, c.isDigit = true)
    (hr : r.takeWhile Char.isDigit = []) : (ds ++ r).takeWhile Char.isDigit = ds := by
  induction ds with
  | nil => simpa using hr
  | cons c cs ih =>
    rw [List.cons_append, List.takeWhile_cons, if_pos (h c (by simp)), ih (fun x hx => h x (by simp [hx]))]

theorem digit_props {c : Char} (h : c.isDigit = true) : isSpace c = false ∧ c ≠ '-' ∧ c ≠ '+' ∧ c ≠ '_' ∧ c ≠ 'm' := by
  have hc : 48 ≤ c.toNat ∧ c.toNat ≤ 57 := by
    simp only [Char.isDigit, Bool.and_eq_true, decide_eq_true_eq, ge_iff_le] at h
    exact ⟨h.1, h.2⟩
  refine ⟨?_, ?_, ?_, ?_, ?_⟩
  · unfold isSpace
    have hne : ∀ d : Char, d.toNat < 48 → (c == d) = false := by
      intro d hd
      rw [beq_eq_false_iff_ne]
      rintro rfl
      omega
    rw [hne ' ' (by decide), hne '\t' (by decide), hne '\n' (by decide), hne '\r' (by decide)]
    have h1 : (c.toNat == 11) = false := by rw [beq_eq_false_iff_ne]; omega
    have h2 : (c.toNat == 12) = false := by rw [beq_eq_false_iff_ne]; omega
    rw [h1, h2]; rfl
  · rintro rfl; revert hc; decide
  · rintro rfl; revert hc; decide
  · rintro rfl; revert hc; decide
  · rintro rfl; revert hc; decide

/-- `atoi` reads the number of a file back, if it is one of `int`. -/
theorem atoi_pad (w n : Nat) {r : Name} (hr : r.takeWhile Char.isDigit = []) (hn : n < 2 ^ 31) :
    atoi (pad w n ++ r) = some (n : Int) := by
  have hd := pad_digits w n
  have hv := pad_value w n
  have hne := pad_ne_nil w n
  generalize pad w n = l at *
  cases l with
  | nil => exact absurd rfl hne
  | cons c cs =>
    obtain ⟨h1, h2, h3, -, -⟩ := digit_props (hd c (by simp))
    have hdrop : ((c :: cs) ++ r).dropWhile isSpace = (c :: cs) ++ r := by
      rw [List.cons_append, List.dropWhile_cons, h1]; simp
    have hdig : digits ((c :: cs) ++ r) = n := by
      unfold digits
      rw [takeWhile_digits hd hr, hv]
    unfold atoi
    simp only [hdrop]
    rw [List.cons_append] at hdig ⊢
    split
    · next h => exact absurd (List.cons.inj h).1 h2
    · next h => exact absurd (List.cons.inj h).1 h3
    · rw [hdig, if_pos]
      constructor <;> omega

/-- `atoi` of a number that is too large is undefined. -/
theorem atoi_pad_large (w n : Nat) {r : Name} (hr : r.takeWhile Char.isDigit = []) (hn : 2 ^ 31 ≤ n) :
    atoi (pad w n ++ r) = none := by
  have hd := pad_digits w n
  have hv := pad_value w n
  have hne := pad_ne_nil w n
  generalize pad w n = l at *
  cases l with
  | nil => exact absurd rfl hne
  | cons c cs =>
    obtain ⟨h1, h2, h3, -, -⟩ := digit_props (hd c (by simp))
    have hdrop : ((c :: cs) ++ r).dropWhile isSpace = (c :: cs) ++ r := by
      rw [List.cons_append, List.dropWhile_cons, h1]; simp
    have hdig : digits ((c :: cs) ++ r) = n := by
      unfold digits
      rw [takeWhile_digits hd hr, hv]
    unfold atoi
    simp only [hdrop]
    rw [List.cons_append] at hdig ⊢
    split
    · next h => exact absurd (List.cons.inj h).1 h2
    · next h => exact absurd (List.cons.inj h).1 h3
    · rw [hdig, if_neg]
      omega

theorem toU64_nat {n : Nat} (hn : n < 2 ^ 31) : toU64 (n : Int) = n := by
  unfold toU64
  omega

theorem split_unique {c : Char} {l m x y : Name} (h : l ++ c :: x = m ++ c :: y) (hm : c ∉ m) (hy : c ∉ y) :
    l = m ∧ x = y := by
  rcases List.append_eq_append_iff.1 h with ⟨w, h1, h2⟩ | ⟨w, h1, h2⟩
  · cases w with
    | nil => simp at h1 h2; exact ⟨h1.symm, h2⟩
    | cons d w =>
      rw [List.cons_append] at h2
      obtain ⟨rfl, -⟩ := List.cons.inj h2
      exact absurd (by rw [h1]; simp) hm
  · cases w with
    | nil => simp at h1 h2; exact ⟨h1, h2.symm⟩
    | cons d w =>
      rw [List.cons_append] at h2
      have := (List.cons.inj h2).2
      exact absurd (by rw [this]; simp) hy

theorem trailing {a ds : Name} (h : ∀ c ∈ ds, c.isDigit = true) (ha : a.reverse.takeWhile Char.isDigit = []) :
    (a ++ ds).reverse.takeWhile Char.isDigit = ds.reverse := by
  rw [List.reverse_append]
  exact takeWhile_digits (fun c hc => h c (by simpa using hc)) ha

theorem word_end (a : Name) (k : Kind) : (a ++ k.word).reverse.takeWhile Char.isDigit = [] := by
  cases k <;> simp [Kind.word]

theorem word_no_us (k : Kind) (p : Nat) : '_' ∉ k.word ++ pad 4 p := by
  intro h
  rcases List.mem_append.1 h with h | h
  · revert h; cases k <;> decide
  · exact absurd rfl (digit_props (pad_digits 4 p _ h)).2.2.2.1

theorem word_suffix {a : Name} {k k' : Kind} (h : a ++ k.word = k'.word) : a = [] ∧ k = k' := by
  have hl := congrArg List.length h
  have hr := congrArg List.reverse h
  cases k <;> cases k' <;> simp [Kind.word] at hl hr ⊢ <;> assumption

/-- Where the stem of a sub-DB can occur in a name of the library. -/
theorem stem_at {a b x : Name} {k k' : Kind} {p q : Nat} (hx : '_' ∉ x)
    (h : stem k' q ++ x = a ++ stem k p ++ b) : a = [] ∧ k = k' ∧ p = q ∧ b = x := by
  unfold stem at h
  have h' : (a ++ (k.word ++ pad 4 p)) ++ '_' :: b = (k'.word ++ pad 4 q) ++ '_' :: x := by
    simpa using h.symm
  obtain ⟨h1, h2⟩ := split_unique h' (word_no_us k' q) hx
  have ht := congrArg (fun l => l.reverse.takeWhile Char.isDigit) h1
  rw [← List.append_assoc, trailing (pad_digits 4 p) (word_end a k),
    trailing (pad_digits 4 q) (by simpa using word_end [] k')] at ht
  have hpq : p = q := pad_inj (List.reverse_injective ht)
  subst hpq
  rw [← List.append_assoc] at h1
  obtain ⟨ha, hk⟩ := word_suffix (List.append_cancel_right h1)
  exact ⟨ha, hk, rfl, h2⟩

theorem has_stem {x : Name} {k k' : Kind} {p q : Nat} (hx : '_' ∉ x) :
    has (stem k' q ++ x) (stem k p) = true ↔ k = k' ∧ p = q := by
  rw [has_iff]
  constructor
  · rintro ⟨a, b, h⟩
    obtain ⟨-, h1, h2, -⟩ := stem_at hx h
    exact ⟨h1, h2⟩
  · rintro ⟨rfl, rfl⟩
    exact ⟨[], x, by simp⟩

theorem has_mani {x : Name} {k : Kind} {p : Nat} (hx : '_' ∉ x) :
    has (stem k p ++ x) (maniName k p) = true ↔ ∃ b, x = ['m', 'a', 'n', 'i', 'f', 'e', 's', 't'] ++ b := by
  rw [has_iff]
  unfold maniName
  constructor
  · rintro ⟨a, b, h⟩
    obtain ⟨-, -, -, h3⟩ := stem_at (a := a) (b := ['m', 'a', 'n', 'i', 'f', 'e', 's', 't'] ++ b) (k := k) (p := p) hx
      (by rw [h]; simp)
    exact ⟨b, h3.symm⟩
  · rintro ⟨b, rfl⟩
    exact ⟨[], b, by simp⟩

/-- A name of the library: files of other kinds and other sub-DBs are kept. -/
theorem stale_other {x : Name} {k k' : Kind} {p q : Nat} {listed : List Nat} (hx : '_' ∉ x)
    (h : ¬(k = k' ∧ p = q)) : stale k p listed (stem k' q ++ x) = some false := by
  unfold stale
  have : has (stem k' q ++ x) (stem k p) = false := by
    rw [Bool.eq_false_iff]; exact fun hh => h ((has_stem hx).1 hh)
  rw [this]; rfl

theorem stale_mani {x : Name} {k : Kind} {p : Nat} {listed : List Nat} :
    stale k p listed (maniName k p ++ x) = some false := by
  unfold stale
  have : has (maniName k p ++ x) (maniName k p) = true := has_iff.2 ⟨[], x, by simp⟩
  rw [this]; simp

theorem us_pad {w n : Nat} {r : Name} (hr : '_' ∉ r) : '_' ∉ pad w n ++ r := by
  intro h
  rcases List.mem_append.1 h with h | h
  · exact absurd rfl (digit_props (pad_digits w n _ h)).2.2.2.1
  · exact hr h

theorem not_mani_file {k : Kind} {p n : Nat} {r : Name} (hr : '_' ∉ r) :
    has (stem k p ++ (pad 8 n ++ r)) (maniName k p) = false := by
  rw [Bool.eq_false_iff]
  intro h
  obtain ⟨b, hb⟩ := (has_mani (us_pad hr)).1 h
  have hd := pad_digits 8 n
  have hne := pad_ne_nil 8 n
  generalize pad 8 n = l at *
  cases l with
  | nil => exact hne rfl
  | cons c cs =>
    simp only [List.cons_append] at hb
    have := (List.cons.inj hb).1
    exact absurd this (digit_props (hd c (by simp))).2.2.2.2

/-- A file of this sub-DB is removed when its number is not listed. -/
theorem stale_own {k : Kind} {p n : Nat} {listed : List Nat} {r : Name} (hr : '_' ∉ r)
    (hd : r.takeWhile Char.isDigit = []) (hn : n < 2 ^ 31) :
    stale k p listed (fileName k p n ++ r) = some (!decide (n ∈ listed)) := by
  have he : fileName k p n ++ r = stem k p ++ (pad 8 n ++ r) := by simp [fileName]
  rw [he]
  unfold stale
  rw [(has_stem (us_pad hr)).2 ⟨rfl, rfl⟩, not_mani_file hr]
  simp only [Bool.not_false, Bool.and_self, if_true, List.drop_left]
  rw [atoi_pad 8 n hd hn]
  simp only [toU64_nat hn]

theorem stale_large {k : Kind} {p n : Nat} {listed : List Nat} {r : Name} (hr : '_' ∉ r)
    (hd : r.takeWhile Char.isDigit = []) (hn : 2 ^ 31 ≤ n) :
    stale k p listed (fileName k p n ++ r) = none := by
  have he : fileName k p n ++ r = stem k p ++ (pad 8 n ++ r) := by simp [fileName]
  rw [he]
  unfold stale
  rw [(has_stem (us_pad hr)).2 ⟨rfl, rfl⟩, not_mani_file hr]
  simp only [Bool.not_false, Bool.and_self, if_true, List.drop_left]
  rw [atoi_pad_large 8 n hd hn]

/-- Names without a digit before the last underscore are kept. -/
theorem stale_plain {k : Kind} {p : Nat} {listed : List Nat} {u x : Name} (hu : ∀ c ∈ u, c.isDigit = false)
    (hx : '_' ∉ x) : stale k p listed (u ++ '_' :: x) = some false := by
  unfold stale
  have : has (u ++ '_' :: x) (stem k p) = false := by
    rw [Bool.eq_false_iff]
    intro h
    obtain ⟨a, b, h⟩ := has_iff.1 h
    unfold stem at h
    have hd := pad_digits 4 p
    have hne := pad_ne_nil 4 p
    have hmem : ∀ c ∈ pad 4 p, c ∈ u := by
      have h' : u ++ '_' :: x = (a ++ k.word ++ pad 4 p) ++ '_' :: b := by simpa using h
      rcases List.append_eq_append_iff.1 h' with ⟨w, h1, h2⟩ | ⟨w, h1, h2⟩
      · cases w with
        | nil => intro c hc; simp at h1; rw [← h1]; simp [hc]
        | cons d w =>
          rw [List.cons_append] at h2
          have := (List.cons.inj h2).2
          exact absurd (by rw [this]; simp) hx
      · intro c hc
        rw [h1]; simp [hc]
    obtain ⟨c, hc⟩ := List.exists_mem_of_ne_nil _ hne
    have h1 := hd c hc
    rw [hu c (hmem c hc)] at h1
    cases h1
  rw [this]; rfl

theorem mem_removeStale {k : Kind} {p : Nat} {listed : List Nat} {files out : List Name}
    (h : removeStale false k p listed files = some out) (f : Name) :
    f ∈ out ↔ f ∈ files ∧ stale k p listed f = some false := by
  unfold removeStale at h
  simp only [Bool.false_eq_true, if_false] at h
  split at h
  · cases h
  · cases h
    simp [List.mem_filter]

theorem removeStale_defined {k : Kind} {p : Nat} {listed : List Nat} {files : List Name}
    (h : ∀ f ∈ files, stale k p listed f ≠ none) : ∃ out, removeStale false k p listed files = some out := by
  unfold removeStale
  simp only [Bool.false_eq_true, if_false]
  rw [if_neg]
  · exact ⟨_, rfl⟩
  · intro hh
    obtain ⟨f, hf, hn⟩ := List.any_eq_true.1 hh
    exact h f hf (Option.isNone_iff_eq_none.1 hn)

end Jungle.Dir
